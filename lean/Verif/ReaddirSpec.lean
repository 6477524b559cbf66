import Verif.ReaddirProps
/-! # Which files a walk is to find: the specification -/
namespace Verif.Readdir

/-- a source file's name -/
def Source (p : Str) : Prop := str ".fu" <:+ p

/-- an entry that is gone into: it may be a directory and is not a source file by its name -/
def Into (e : Entry) (p : Str) : Prop := ¬ Source p ∧ (e.type = DT_DIR ∨ e.type = DT_UNKNOWN)

/-- `p` is a source file at any depth below the directory `d` (with its slash) -/
inductive Found (S : Sys) : Str → Str → Prop where
  | here {d : Str} {l : Listing} {e : Entry} : S.ls (S.dir d) = .ok l → e ∈ l.entries → ¬ Dot e.name → Source (d ++ e.name) →
      Found S d (d ++ e.name)
  | deeper {d p : Str} {l : Listing} {e : Entry} : S.ls (S.dir d) = .ok l → e ∈ l.entries → ¬ Dot e.name → Into e (d ++ e.name) →
      Found S (d ++ e.name ++ [ch '/']) p → Found S d p

/-- no chain of directories below `d` is longer than `n` -/
inductive Shallow (S : Sys) : Nat → Str → Prop where
  | mk {n : Nat} {d : Str} : (∀ (l : Listing) (e : Entry), S.ls (S.dir d) = .ok l → e ∈ l.entries → ¬ Dot e.name → Into e (d ++ e.name) →
      Shallow S n (d ++ e.name ++ [ch '/'])) → Shallow S (n + 1) d

/-- names as systems have them: no slash and no null in them, not empty -/
def Proper (S : Sys) : Prop := ∀ (d : List Str) (l : Listing) (e : Entry), S.ls d = .ok l → e ∈ l.entries →
  ch '/' ∉ e.name ∧ (0 : Byte) ∉ e.name ∧ e.name ≠ []

/-- no name twice in a directory -/
def Distinct (S : Sys) : Prop := ∀ (d : List Str) (l : Listing), S.ls d = .ok l → (l.entries.map Entry.name).Nodup

end Verif.Readdir
