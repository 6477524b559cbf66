import Verif.Basic
/-! # Making directories

lib/fs.fu:7-56 (`mkdir_p`; lib/fs.fu.cpp:27-64 is what it compiles to), src/build.fu:155-185 (its use when a file is written). -/
namespace Verif.Mkdir

def ENOENT : Nat := 2
def EEXIST : Nat := 17

/-! ### the system: directories by their names from the root. No links, no `.` and `..`, no other process. -/

/-- the names in a path -/
def namesFrom (acc : Str) : Str → List Str
  | [] => if acc = [] then [] else [acc]
  | c :: r =>
    if c = ch '/' then (if acc = [] then namesFrom [] r else acc :: namesFrom [] r)
    else namesFrom (acc ++ [c]) r

def names (p : Str) : List Str := namesFrom [] p

/-- what does not change: the working directory, and what the system forbids (with which error) -/
structure Env where
  cwd : List Str
  deny : List Str → Option Nat

/-- the directories there are, besides the root -/
abbrev Fs := List (List Str)

def There (fs : Fs) (d : List Str) : Prop := d = [] ∨ d ∈ fs

instance (fs : Fs) (d : List Str) : Decidable (There fs d) := inferInstanceAs (Decidable (_ ∨ _))

/-- the directory a path means -/
def Env.dir (E : Env) (p : Str) : List Str := if p.head? = some (ch '/') then names p else E.cwd ++ names p

/-- mkdir(2) -/
def mkdir (E : Env) (fs : Fs) (p : Str) : Nat × Fs :=
  if p = [] then (ENOENT, fs)
  else if There fs (E.dir p) then (EEXIST, fs)
  else if ¬ There fs (E.dir p).dropLast then (ENOENT, fs)
  else match E.deny (E.dir p) with
    | some e => (e, fs)
    | none => (0, fs ++ [E.dir p])

/-! ### the code -/

/-- what C sees of a buffer -/
def cstr (buf : Str) : Str := buf.takeWhile (· ≠ 0)

/-- lib/fs.fu:33-36: the last slash before `N`, but not at 0 -/
def lastSlash (buf : Str) : Nat → Option Nat
  | 0 => none
  | n + 1 => if n < 1 then none else if buf[n]? = some (ch '/') then some n else lastSlash buf n

theorem lastSlash_lt (buf : Str) : ∀ N i, lastSlash buf N = some i → i < N := by
  intro N
  induction N with
  | zero => intro i h; cases h
  | succ n ih =>
    intro i h
    unfold lastSlash at h
    split at h
    · cases h
    · split at h
      · cases h; omega
      · have := ih i h; omega

/-- lib/fs.fu:12-50 (`visit`): the view ends at `N`; the errno, the buffer, the directories -/
def visit (E : Env) (buf : Str) (fs : Fs) (N : Nat) : Nat × Str × Fs :=
  let buf0 := buf.set N 0
  let r := mkdir E fs (cstr buf0)
  if r.1 = ENOENT then
    match h : lastSlash buf0 N with
    | none => (r.1, buf0.set N (ch '/'), r.2)
    | some i =>
      let p := visit E buf0 r.2 i
      if p.1 = 0 then
        let r' := mkdir E p.2.2 (cstr p.2.1)
        (if r'.1 ≠ 0 then r'.1 else r.1, p.2.1.set N (ch '/'), r'.2)
      else (r.1, p.2.1.set N (ch '/'), p.2.2)
  else (r.1, buf0.set N (ch '/'), r.2)
termination_by N
decreasing_by exact lastSlash_lt _ _ _ h

/-- lib/fs.fu:52-56 -/
def mkdir_p (E : Env) (fs : Fs) (path : Str) : Nat × Fs :=
  let path := if path.getLast? = some (ch '/') then path else path ++ [ch '/']
  let r := visit E path fs (path.length - 1)
  (r.1, r.2.2)

end Verif.Mkdir
