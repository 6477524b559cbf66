import Verif.ReaddirFound
/-! # Reading directories: what is not so, and the name of the program -/
namespace Verif.Readdir
open Verif.Mkdir (Env names cstr)

/-- **An error in the middle cannot be told from the end**: whatever the block does, the result is the same as if the directories had
ended where reading failed. -/
theorem error_hidden_partial {σ : Type} (S : Sys) (copy : Bool) (block : Str → Nat → Str → σ → Act σ) (n : Nat) (path : Str) (s : St σ) :
    readdir S copy block n path s =
      readdir { S with ls := fun d => (S.ls d).map fun l => { l with bad := false } } copy block n path s := by
  induction n generalizing path s with
  | zero => rfl
  | succ n ih =>
    have e : readdir S copy block n = readdir { S with ls := fun d => (S.ls d).map fun l => { l with bad := false } } copy block n :=
      funext fun p => funext fun s => ih p s
    rw [readdir, readdir]
    have h : opendir { S with ls := fun d => (S.ls d).map fun l => { l with bad := false } } s.opened (slashed path ++ [0]) =
        (opendir S s.opened (slashed path ++ [0])).map fun l => { l with bad := false } := by
      unfold opendir
      simp only [Sys.dir]
      by_cases hm : S.max ≤ s.opened
      · rw [if_pos hm, if_pos hm]; rfl
      · rw [if_neg hm, if_neg hm]
        cases S.ls (Env.dir ⟨S.cwd, fun _ => none⟩ (cstr (slashed path ++ [0]))) <;> rfl
    simp only [h, e]
    cases opendir S s.opened (slashed path ++ [0]) <;> rfl

/-- a system: `src` with a file, a directory with a file, and a directory named like a source file -/
def demo : Sys where
  cwd := []
  max := 100
  ls d :=
    if d = [str ".", str "src"] then .ok ⟨[⟨str "..", DT_DIR⟩, ⟨str "a.fu", DT_REG⟩, ⟨str ".", DT_DIR⟩, ⟨str "lib", DT_DIR⟩, ⟨str "x.fu", DT_DIR⟩, ⟨str "b.cpp", DT_REG⟩], false⟩
    else if d = [str ".", str "src", str "lib"] then .ok ⟨[⟨str "c.fu", DT_REG⟩, ⟨str "d", DT_UNKNOWN⟩], false⟩
    else if d = [str ".", str "src", str "x.fu"] then .ok ⟨[⟨str "e.fu", DT_REG⟩], false⟩
    else .error 2

/-- the same, seen by a program that may open one directory at a time only -/
def poor : Sys := { demo with max := 1 }

example : watched demo 4 = some [str "./src/a.fu", str "./src/lib/c.fu", str "./src/x.fu"] := by decide

theorem demo_proper : Proper demo ∧ Distinct demo := by
  constructor
  · intro d l e h he
    unfold demo at h
    simp only at h
    split at h
    · cases h; revert e; decide
    · split at h
      · cases h; revert e; decide
      · split at h
        · cases h; revert e; decide
        · cases h
  · intro d l h
    unfold demo at h
    simp only at h
    split at h
    · cases h; decide
    · split at h
      · cases h; decide
      · split at h
        · cases h; decide
        · cases h

/-- `collect_finds` and `watched_finds` apply -/
example : ∃ fs, watched demo 4 = some fs ∧ str "./src/lib/c.fu" ∈ fs ∧ ∀ f, f ∈ fs ↔ Found demo (str "./src/") f ∨ Found demo (str "./lib/") f := by
  have h : ∃ fs, watched demo 4 = some fs ∧ str "./src/lib/c.fu" ∈ fs := ⟨_, rfl, by decide⟩
  obtain ⟨fs, h, h'⟩ := h
  exact ⟨fs, h, h', (watched_finds demo demo_proper.1 demo_proper.2 4 (by decide) fs h).2⟩

/-- `left_marked` applies: a search for `c.fu` leaves two directories at once -/
example : ∃ t, readdir demo false (fun name _ path (found : Option Str) =>
      if name = str "c.fu" then .leave (some path) else .recurse found fun _ u => if u = none then .done u else .leave u) 4 (str "./src") ⟨none, 0⟩ =
    some (.left t) ∧ t.user = some (str "./src/lib/c.fu") ∧ t.opened = 0 := ⟨_, rfl, by decide, rfl⟩

example : ∀ (name : Str) (ty : Nat) (path : Str) (u : Option Str), ¬ (u ≠ none) →
    Act.Marked (· ≠ none) (if name = str "c.fu" then .leave (some path) else .recurse u fun _ u => if u = none then .done u else .leave u) := by
  intro name ty path u hu
  split
  · simp [Act.Marked]
  · refine ⟨hu, fun _ u hu => ?_⟩
    have : u = none := Decidable.not_not.1 hu
    subst this
    exact fun h => h rfl

/-- **A directory named like a source file** is taken for one, and what is in it is not found. -/
theorem fu_dir_partial : ∃ fs, watched demo 4 = some fs ∧ str "./src/x.fu" ∈ fs ∧ str "./src/x.fu/e.fu" ∉ fs ∧
    demo.ls (demo.dir (str "./src/x.fu")) = .ok ⟨[⟨str "e.fu", DT_REG⟩], false⟩ := by
  refine ⟨_, rfl, ?_, ?_, rfl⟩ <;> decide

/-- **When no more directories may be open**, files are left out and nothing is said: the walk of `src` succeeds. -/
theorem too_many_partial : ∃ fs, watched poor 4 = some fs ∧ str "./src/lib/c.fu" ∉ fs ∧ Found poor (str "./src/") (str "./src/lib/c.fu") ∧
    ∃ s, readdir poor false collectBlock 4 (str "./src") ⟨[], 0⟩ = some (.ret 0 s) := by
  refine ⟨_, rfl, by decide, ?_, _, rfl⟩
  refine .deeper (l := ⟨_, _⟩) (e := ⟨str "lib", DT_DIR⟩) rfl (by simp) (by decide) ⟨?_, .inl rfl⟩ ?_
  · rintro ⟨a, h⟩
    have := congrArg List.getLast? h
    rw [List.getLast?_append, show (str ".fu").getLast? = some (ch 'u') from by decide, Option.some_or] at this
    exact absurd this (by decide)
  · exact .here (l := ⟨_, _⟩) (e := ⟨str "c.fu", DT_REG⟩) rfl (by simp) (by decide) ⟨str "./src/lib/c", by decide⟩

/-- **A caller who wants the name as a string** gets, as the second, the first and the second in one: here the path too is of no file. -/
theorem names_grow_partial (S : Sys) (n : Nat) (d a b : Str) (t u : Nat) (bad : Bool) (o : Nat) (hm : o < S.max) (h0 : (0 : Byte) ∉ d)
    (hl : S.ls (S.dir (slashed d)) = .ok ⟨[⟨a, t⟩, ⟨b, u⟩], bad⟩) (ha : ¬ Dot a) (hb : ¬ Dot (a ++ b)) :
    readdir S true (fun name _ path (s : List (Str × Str)) => .done (s ++ [(name, path)])) (n + 1) d ⟨[], o⟩ =
      some (.ret 0 ⟨[(a, slashed d ++ a), (a ++ b, slashed d ++ (a ++ b))], o⟩) := by
  rw [readdir]
  simp only [(opendir_null S o _ (slashed_null _ h0) hm _).2 hl, loop, if_true, List.nil_append, perform]
  unfold Dot at ha hb
  simp [if_neg ha, if_neg hb, close]

/-- and as `.` comes first, what comes next is neither `.` nor `..` for it: `...` -/
example : readdir { demo with ls := fun _ => .ok ⟨[⟨str ".", 4⟩, ⟨str "..", 4⟩, ⟨str "a", 8⟩], false⟩ } true
    (fun name _ _ (s : List Str) => .done (s ++ [name])) 1 (str "/") ⟨[], 0⟩ = some (.ret 0 ⟨[str "...", str "...a"], 0⟩) := rfl

/-- **The empty path** is no path (open says so), but here it is the root -/
theorem empty_root_partial {σ : Type} (S : Sys) (copy : Bool) (block : Str → Nat → Str → σ → Act σ) (n : Nat) (s : St σ) :
    readdir S copy block n [] s = readdir S copy block n (str "/") s := by
  cases n with
  | zero => rfl
  | succ n => rw [readdir, readdir]; rfl

/-! ## The name of the program -/

/-- **It is there**: the result begins with it, if it fits -/
theorem executable_prefix (junk t : Str) (h : 0 < t.length) (h' : t.length < PATH_MAX) : t <+: executable junk (some t) := by
  unfold executable
  have e : t.take PATH_MAX = t := List.take_of_length_le (by omega)
  simp only [e]
  rw [if_pos ⟨h, h'⟩, List.take_append, e]
  exact List.prefix_append _ _

/-- **but what follows is whatever the buffer held**: the length is the buffer's and not the name's -/
theorem executable_partial (junk t : Str) (hj : junk.length = PATH_MAX) (h : 0 < t.length) (h' : t.length < PATH_MAX) :
    executable junk (some t) = t ++ junk.drop t.length ∧ (executable junk (some t)).length = PATH_MAX ∧ executable junk (some t) ≠ t := by
  have e : t.take PATH_MAX = t := List.take_of_length_le (by omega)
  have hl : (t ++ junk.drop t.length).length = PATH_MAX := by simp [hj]; omega
  have e1 : executable junk (some t) = t ++ junk.drop t.length := by
    unfold executable
    simp only [e]
    rw [if_pos ⟨h, h'⟩]
    exact List.take_of_length_le (Nat.le_of_eq hl)
  refine ⟨e1, by rw [e1]; exact hl, ?_⟩
  intro hh
  have := congrArg List.length hh
  rw [e1, hl] at this
  omega

/-- when it does not fit, or is not known, the result is empty -/
theorem executable_none (junk : Str) : executable junk none = [] ∧ ∀ t : Str, PATH_MAX ≤ t.length → executable junk (some t) = [] := by
  refine ⟨rfl, fun t h => ?_⟩
  unfold executable
  have : (t.take PATH_MAX).length = PATH_MAX := by simp; omega
  simp only [this]
  rw [if_neg (by omega)]

example : executable (List.replicate PATH_MAX 7) (some (str "/bin/fu")) = str "/bin/fu" ++ List.replicate 4089 7 := by
  rw [(executable_partial _ _ (List.length_replicate ..) (by decide) (by decide)).1, List.drop_replicate]
  rfl

end Verif.Readdir
