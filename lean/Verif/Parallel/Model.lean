import Verif.Util.HMap
/-!
# The parallel build of modules

llrl0/src/module/parallel.rs.  The worker threads of the rayon scope are a list of threads, each a list of atomic actions still to be done; a step runs
the first action of any thread.  Simplifications: `leader_count` is a natural number instead of a 32-bit one (it counts the dependencies of a
module); `Module::build` is given by its outcome; locks are held only inside one action.
-/
namespace Verif.Parallel

variable {P : Type} [DecidableEq P]

/-- `Source`, source.rs, the parts used: `path` and the values of `dependencies`, in any order. -/
structure Source (P : Type) where
  path : P
  deps : List P

/-- `path_to_module` and, for each `BuildingModule`, `leader_count` and `followers`, parallel.rs:72-73, 103-110. -/
structure Setup (P : Type) where
  ids : HMap P Nat
  leader : List Nat
  followers : List (List Nat)

/-- parallel.rs:79-84: one dependency of module `mid`. -/
def addDep (ids : HMap P Nat) (mid : Nat) (a : Nat × List (List Nat)) (dep : P) : Nat × List (List Nat) :=
  match HMap.get ids dep with
  | some j => (a.1 + 1, a.2.modify j (· ++ [mid]))
  | none => a

/-- parallel.rs:75-88: one source; `BuildingModule::new` starts with `leader_count` 1 and no followers (112-121). -/
def addSource (t : Setup P) (s : Source P) : Setup P :=
  ⟨HMap.insert t.ids s.path t.leader.length,
   t.leader ++ [(s.deps.foldl (addDep t.ids t.leader.length) (1, t.followers)).1],
   (s.deps.foldl (addDep t.ids t.leader.length) (1, t.followers)).2 ++ [[]]⟩

def setup (ss : List (Source P)) : Setup P := ss.foldl addSource ⟨[], [], []⟩

/-- The atomic actions. -/
inductive Act
  /-- `leader_count.fetch_sub(1)` of `release_dependency_one`, 159-161 -/
  | dec (m : Nat)
  /-- `scope.spawn`, 163 -/
  | spawn (m : Nat)
  /-- `Module::build` begins, 166 -/
  | start (m : Nat)
  /-- `Module::build` returns -/
  | finish (m : Nat)
  /-- `backend.add_module`, 170-171 -/
  | add (m : Nat)
  /-- writing `module.result`, 172, 178 -/
  | write (m : Nat) (ok : Bool)
deriving DecidableEq, Repr

/-- What happened. -/
inductive Event
  | started (m : Nat)
  | finished (m : Nat) (ok : Bool)
  | added (m : Nat)
  | wrote (m : Nat) (ok : Bool)
deriving DecidableEq, Repr

structure State where
  count : Nat → Nat
  /-- `none` is the initial `Err(DependentModuleBuildFailed)`, 119 -/
  result : Nat → Option Bool
  threads : List (List Act)
  trace : List Event

def upd {α} (f : Nat → α) (k : Nat) (v : α) : Nat → α := fun x => if x = k then v else f x

/-- What an action does: the rest of its thread is `rest`; the new actions of the thread, and a new thread if one is spawned. -/
def act (followers : Nat → List Nat) (outcome : Nat → Bool) (s : State) (rest : List Act) : Act → List Act × List (List Act) × State
  | .dec m => (if s.count m = 1 then .spawn m :: rest else rest, [], { s with count := upd s.count m (s.count m - 1) })
  | .spawn m => (rest, [[.start m]], s)
  | .start m => (.finish m :: rest, [], { s with trace := s.trace ++ [.started m] })
  | .finish m =>
    (if outcome m then .add m :: .write m true :: ((followers m).map .dec ++ rest) else .write m false :: rest, [],
      { s with trace := s.trace ++ [.finished m (outcome m)] })
  | .add m => (rest, [], { s with trace := s.trace ++ [.added m] })
  | .write m ok => (rest, [], { s with result := upd s.result m (some ok), trace := s.trace ++ [.wrote m ok] })

/-- A step: some thread runs its first action. -/
inductive Step (followers : Nat → List Nat) (outcome : Nat → Bool) : State → State → Prop
  | run {s : State} (pre post : List (List Act)) (a : Act) (rest : List Act) : s.threads = pre ++ (a :: rest) :: post →
      Step followers outcome s { (act followers outcome s rest a).2.2 with
        threads := pre ++ (act followers outcome s rest a).1 :: post ++ (act followers outcome s rest a).2.1 }

/-- parallel.rs:153-157 `run`: the first thread releases every module once. -/
def initial (leader : Nat → Nat) (n : Nat) : State := ⟨leader, fun _ => none, [(List.range n).map .dec], []⟩

/-- Any number of steps. -/
inductive Steps (followers : Nat → List Nat) (outcome : Nat → Bool) : Nat → State → State → Prop
  | nil (s) : Steps followers outcome 0 s s
  | cons {k s t u} : Steps followers outcome k s t → Step followers outcome t u → Steps followers outcome (k + 1) s u

/-- The runs of `build` for the sources. -/
def Run (ss : List (Source P)) (outcome : Nat → Bool) (k : Nat) (s : State) : Prop :=
  Steps (fun d => (setup ss).followers.getD d []) outcome k (initial (fun m => (setup ss).leader.getD m 0) ss.length) s

/-- The scope ends when every thread is done. -/
def State.done (s : State) : Prop := ∀ t ∈ s.threads, t = []

end Verif.Parallel
