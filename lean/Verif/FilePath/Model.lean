import Verif.StrOps.Model

/-!
# Model of the path functions of `std/io/path.llrl`

Strings are lists of bytes as in the area `StrOps`, whose functions are used here.  The working directory (`path/cwd`) is a parameter.
-/
namespace Verif.FilePath
open Verif.Utf8 Verif.StrOps

/-- `string/byte-at`, std/internal/string-text.llrl:96-97: an index out of range fails an assertion. -/
def byteAt (i : Nat) (s : List Nat) : M Nat := lift s[i]?

/-- `last-component-end`, path.llrl:151-155: the loop counts down from the length. -/
def endLoop (p : List Nat) : Nat → M Nat
  | 0 => .ok 0
  | r + 1 => do
    let b ← byteAt r p
    if b = 47 then endLoop p r else .ok (r + 1)

def lastEnd (p : List Nat) : M Nat := endLoop p p.length

/-- The loop of `last-component-start-end`, path.llrl:162-163. -/
def startLoop (p : List Nat) : Nat → M Nat
  | 0 => .ok 0
  | l + 1 => do
    let b ← byteAt l p
    if b ≠ 47 then startLoop p l else .ok (l + 1)

/-- `last-component-start-end`, path.llrl:159-164. -/
def startEnd (p : List Nat) : M (Nat × Nat) := do
  let r ← lastEnd p
  let l ← startLoop p r
  .ok (l, r)

/-- The loop of `last-component-start-dot-end`, path.llrl:171-172. -/
def dotLoop (p : List Nat) (l : Nat) : Nat → M Nat
  | 0 => .ok 0
  | e + 1 =>
    if l < e + 1 then do
      let b ← byteAt e p
      if b ≠ 46 then dotLoop p l e else .ok (e + 1)
    else .ok (e + 1)

/-- `last-component-start-dot-end`, path.llrl:168-173. -/
def startDotEnd (p : List Nat) : M (Nat × Nat × Nat) := do
  let (l, r) ← startEnd p
  let e ← dotLoop p l r
  .ok (l, e, r)

/-- `path/absolute?`, path.llrl:75-76. -/
def isAbsolute (p : List Nat) : Bool := startsWith [47] p

/-- `path/base-name`, path.llrl:39-44. -/
def baseName (p : List Nat) : M (List Nat) :=
  if p.length = 0 then .ok p else do
    let (l, r) ← startEnd p
    if l = r then .ok [47] else lift (substring l r p)

/-- `path/dir-name`, path.llrl:46-50. -/
def dirName (p : List Nat) : M (List Nat) := do
  let (l, _) ← startEnd p
  if l ≤ 1 then .ok (if isAbsolute p then [47] else [46])
  else take (l - 1) p

/-- `path/extension?`, path.llrl:52-56. -/
def extension (p : List Nat) : M (Option (List Nat)) := do
  let (l, e, r) ← startDotEnd p
  if l + 1 < e then do
    let x ← lift (substring e r p)
    .ok (some x)
  else .ok none

/-- `path/with-extension`, path.llrl:58-67. -/
def withExtension (ext : Option (List Nat)) (p : List Nat) : M (List Nat) := do
  let (l, e, r) ← startDotEnd p
  let front ← if l + 1 < e then take (e - 1) p else take r p
  let back ← skip r p
  .ok (front ++ (match ext with | some x => [46] ++ x | none => []) ++ back)

/-- `path/default-extension`, path.llrl:69-73. -/
def defaultExtension (ext : List Nat) (p : List Nat) : M (List Nat) := do
  let (l, e, r) ← startDotEnd p
  if l + 1 < e then .ok p
  else do
    let front ← take r p
    let back ← skip r p
    .ok (front ++ [46] ++ ext ++ back)

/-- `path/join`, path.llrl:138-142. -/
def join (p q : List Nat) : M (List Nat) :=
  if isAbsolute q then .ok q
  else if p = [47] then .ok (p ++ q)
  else do
    let r ← lastEnd p
    let front ← take r p
    .ok (front ++ [47] ++ q)

/-- `skip-repeated-dir-separator`, path.llrl:144-147. -/
def skipSeps : Nat → List Nat → M (List Nat)
  | 0, _ => .error .fuel
  | fuel + 1, s =>
    if 1 ≤ s.length then do
      let b ← byteAt 0 s
      if b = 47 then do
        let t ← skip 1 s
        skipSeps fuel t
      else .ok s
    else .ok s

/-- `PathComponent`, path.llrl:83-87. -/
inductive Comp
  | rootDir | currentDir | parentDir | normal (s : List Nat)
deriving DecidableEq, Repr

/-- One call of the iterator of `path/components`, path.llrl:91-117: the component and the new rest. -/
def nextComp (rest : List Nat) : M (Option (Comp × List Nat)) :=
  if rest.length = 0 then .ok none
  else if startsWith [47] rest then do
    let t ← skip 1 rest
    let t ← skipSeps (t.length + 1) t
    .ok (some (.rootDir, t))
  else if startsWith [46, 47] rest then do
    let t ← skip 2 rest
    let t ← skipSeps (t.length + 1) t
    .ok (some (.currentDir, t))
  else if startsWith [46, 46, 47] rest then do
    let t ← skip 3 rest
    let t ← skipSeps (t.length + 1) t
    .ok (some (.parentDir, t))
  else do
    match ← find [47] rest with
    | some i => do
      let c ← take i rest
      let t ← skip i rest
      let t ← skipSeps (t.length + 1) t
      .ok (some (.normal c, t))
    | none =>
      .ok (some (if rest = [46] then .currentDir else if rest = [46, 46] then .parentDir else .normal rest, []))

/-- `path/components`, path.llrl:89-117, run to its end. -/
def components : Nat → List Nat → M (List Comp)
  | 0, _ => .error .fuel
  | fuel + 1, rest => do
    match ← nextComp rest with
    | none => .ok []
    | some (c, t) => do
      let cs ← components fuel t
      .ok (c :: cs)

/-- `canonicalize/put!`, path.llrl:125-133: `vector/pop!` of an empty vector changes nothing. -/
def put : List Comp → List (List Nat) → List (List Nat)
  | [], buf => buf
  | .rootDir :: cs, _ => put cs []
  | .currentDir :: cs, buf => put cs buf
  | .parentDir :: cs, buf => put cs buf.dropLast
  | .normal s :: cs, buf => put cs (buf ++ [s])

/-- `canonicalize/complete`, path.llrl:135-136: `it/chain` of the empty string and the buffer. -/
def complete (buf : List (List Nat)) : List Nat := StrOps.join [47] ([] :: buf)

/-- `canonicalize/init`, path.llrl:122-123. -/
def init (cwd : List Nat) : M (List (List Nat)) := do
  let cs ← components (cwd.length + 1) cwd
  .ok (put cs [])

/-- `path/canonicalize`, path.llrl:119-120. -/
def canonicalize (cwd p : List Nat) : M (List Nat) := do
  let buf ← init cwd
  let cs ← components (p.length + 1) p
  .ok (complete (put cs buf))

/-- The arguments of the macro `canonicalized-path` after each other, path.llrl:29-32. -/
def putAll : List (List Nat) → List (List Nat) → M (List (List Nat))
  | [], buf => .ok buf
  | p :: ps, buf => do
    let cs ← components (p.length + 1) p
    putAll ps (put cs buf)

/-- What the macro `canonicalized-path` expands to, path.llrl:25-34. -/
def canonicalizedPath (cwd : List Nat) (ps : List (List Nat)) : M (List Nat) := do
  let buf ← init cwd
  let buf ← putAll ps buf
  .ok (complete buf)

/-- What the macro `path` expands to, path.llrl:18-23. -/
def pathMacro (a : List Nat) : List (List Nat) → M (List Nat)
  | [] => .ok a
  | b :: bs => do
    let c ← join a b
    pathMacro c bs

end Verif.FilePath
