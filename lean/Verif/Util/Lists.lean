/-! Small list lemmas. -/
namespace Verif

theorem nodup_length_le {α} [DecidableEq α] {l u : List α} (hn : l.Nodup) (hs : ∀ x ∈ l, x ∈ u) : l.length ≤ u.length := by
  induction l generalizing u with
  | nil => simp
  | cons x l ih =>
    obtain ⟨hx, hn⟩ := List.nodup_cons.1 hn
    have hm : x ∈ u := hs x (by simp)
    have := ih (u := u.erase x) hn (fun y hy => by
      rw [List.mem_erase_of_ne (by rintro rfl; exact hx hy)]
      exact hs y (by simp [hy]))
    rw [List.length_erase_of_mem hm] at this
    have : 0 < u.length := List.length_pos_of_mem hm
    simp; omega

end Verif
