import Verif.Path
import Verif.PreludeProps
import Mathlib.Tactic.SplitIfs
import Mathlib.Tactic.ByContra
import Mathlib.Tactic.Tauto
import Mathlib.Data.List.Induction
/-!
# Paths (C22)

Specification: a path is the list of its components (`comps`, the text between slashes); it designates the place one
reaches by walking those components from the current directory (`walk`).
-/
namespace Verif.Path
open Verif Verif.Prelude

/-! ## Specification -/

/-- The components of a path: the text between its slashes. -/
def comps : Str → List Str
  | [] => [[]]
  | c :: s =>
    if c = slash then [] :: comps s
    else
      match comps s with
      | [] => [[c]]
      | p :: ps => (c :: p) :: ps

/-- One step of a walk through a directory tree: an empty component and `.` stay, `..` goes to the parent (the parent of
the root is the root), and anything else goes down.  A place is the list of names that leads to it from the root. -/
def walk1 (dir : List Str) (part : Str) : List Str :=
  if part = [] ∨ part = str "." then dir
  else if part = str ".." then dir.dropLast
  else dir ++ [part]

/-- The place that path `p` designates when the current directory is `cwd`. -/
def walk (cwd : List Str) (p : Str) : List Str :=
  (comps p).foldl walk1 (if p.head? = some slash then [] else cwd)

/-- Walking the components never climbs more than `n` levels above the start. -/
def stays : Nat → List Str → Prop
  | _, [] => True
  | n, x :: xs =>
    if x = [] ∨ x = str "." then stays n xs
    else if x = str ".." then n ≠ 0 ∧ stays (n - 1) xs
    else stays (n + 1) xs

/-- A proper file or directory name. -/
def Name (x : Str) : Prop := x ≠ [] ∧ x ≠ str "." ∧ x ≠ str ".." ∧ slash ∉ x

/-- Names separated by single slashes, possibly with a slash in front. -/
def Clean (p : Str) : Prop :=
  ∃ names : List Str, names ≠ [] ∧ (∀ x ∈ names, Name x) ∧ (p = glue [slash] names ∨ p = slash :: glue [slash] names)

/-! ## Components -/

theorem _root_.List.mem_of_mem_dropLast' {α : Type} {l : List α} {x : α} (h : x ∈ l.dropLast) : x ∈ l := by
  rw [List.dropLast_eq_take] at h; exact List.mem_of_mem_take h


theorem comps_ne (s : Str) : comps s ≠ [] := by
  cases s with
  | nil => simp [comps]
  | cons c s => unfold comps; split_ifs; · simp
                split <;> simp

theorem comps_nonslash {c : Byte} (h : c ≠ slash) (s : Str) :
    ∃ p ps, comps s = p :: ps ∧ comps (c :: s) = (c :: p) :: ps := by
  cases e : comps s with
  | nil => exact absurd e (comps_ne s)
  | cons p ps => exact ⟨p, ps, rfl, by simp only [comps]; rw [if_neg h, e]⟩

theorem comps_append_slash (a b : Str) : comps (a ++ slash :: b) = comps a ++ comps b := by
  induction a with
  | nil => simp [comps]
  | cons c a ih =>
    by_cases h : c = slash
    · subst h; simp only [List.cons_append, comps, if_true, ih]
    · obtain ⟨p, ps, e1, e2⟩ := comps_nonslash h a
      rw [e1] at ih
      obtain ⟨p', ps', e3, e4⟩ := comps_nonslash h (a ++ slash :: b)
      rw [ih] at e3
      injection e3 with e3 e5
      rw [List.cons_append, e4, e2, ← e3, ← e5]; rfl

theorem comps_free {a : Str} (h : slash ∉ a) : comps a = [a] := by
  induction a with
  | nil => rfl
  | cons c a ih =>
    simp only [List.mem_cons, not_or] at h
    obtain ⟨p, ps, e1, e2⟩ := comps_nonslash (Ne.symm h.1) a
    rw [ih h.2] at e1
    injection e1 with e1 e3
    rw [e2, ← e1, ← e3]

theorem comps_mem_free (s : Str) : ∀ x ∈ comps s, slash ∉ x := by
  induction s with
  | nil => intro x hx; have : x = [] := by simpa [comps] using hx
           subst this; simp
  | cons c s ih =>
    by_cases h : c = slash
    · subst h
      intro x hx
      simp only [comps, if_true, List.mem_cons] at hx
      rcases hx with rfl | hx
      · simp
      · exact ih x hx
    · obtain ⟨p, ps, e1, e2⟩ := comps_nonslash h s
      intro x hx
      rw [e2] at hx
      rw [e1] at ih
      rcases List.mem_cons.1 hx with rfl | hx
      · simp only [List.mem_cons, not_or]
        exact ⟨Ne.symm h, ih p (by simp)⟩
      · exact ih x (by simp [hx])

theorem glue_cons_ne (p : Str) (ps : List Str) (h : ps ≠ []) : glue [slash] (p :: ps) = p ++ slash :: glue [slash] ps := by
  cases ps with
  | nil => exact absurd rfl h
  | cons q qs => simp [glue]

theorem comps_glue (ps : List Str) (hne : ps ≠ []) (h : ∀ x ∈ ps, slash ∉ x) : comps (glue [slash] ps) = ps := by
  induction ps with
  | nil => exact absurd rfl hne
  | cons p ps ih =>
    cases ps with
    | nil => exact comps_free (h p (by simp))
    | cons q qs =>
      rw [glue_cons_ne p _ (by simp), comps_append_slash, comps_free (h p (by simp)),
        ih (by simp) (fun x hx => h x (by simp [hx]))]; rfl

theorem glue_comps (s : Str) : glue [slash] (comps s) = s := by
  induction s with
  | nil => rfl
  | cons c s ih =>
    by_cases h : c = slash
    · subst h
      simp only [comps, if_true]
      rw [glue_cons_ne _ _ (comps_ne s), ih]; rfl
    · obtain ⟨p, ps, e1, e2⟩ := comps_nonslash h s
      rw [e2]
      rw [e1] at ih
      cases ps with
      | nil => simp only [glue] at ih ⊢; rw [ih]
      | cons q qs =>
        rw [glue_cons_ne _ _ (by simp)] at ih ⊢
        rw [List.cons_append, ih]

theorem occurs_mem {p : Str} {c : Byte} {k : Nat} (h : Occurs p [c] k) : c ∈ p := by
  obtain ⟨a, b, rfl, -⟩ := h; simp

theorem cut_of_free (l : List Str) (hne : l ≠ []) (h : ∀ x ∈ l, slash ∉ x) : Cut [slash] l := by
  induction l with
  | nil => exact absurd rfl hne
  | cons p l ih =>
    cases l with
    | nil => exact fun k ho => h p (by simp) (occurs_mem ho)
    | cons q qs =>
      refine ⟨fun k hk ho => ?_, ih (by simp) (fun x hx => h x (by simp [hx]))⟩
      have ho := ((occurs_iff _ _ _).1 ho).2 0 (by simp)
      rw [Nat.add_zero, List.getElem?_append_left hk] at ho
      exact h p (by simp) (List.mem_of_getElem? ho)

/-- `split(p, '/')` gives the components. -/
theorem split_comps (s : Str) : split s (.one slash) = some (comps s) := by
  obtain ⟨ps, e, hg, hc⟩ := split_cuts s (.one slash) (by simp [Needle.items])
  rw [e]
  congr 1
  refine cut_unique [slash] (by simp) _ _ hc (cut_of_free _ (comps_ne s) (comps_mem_free s)) ?_
  rw [glue_comps]; exact hg

/-! ## What `normalize` computes -/

/-- What the first loop does to one part that has `r` to its right. -/
def tidy1 (x : Str) (r : List Str) : List Str := if x = str "." ∨ (x = [] ∧ r ≠ []) then r else x :: r

def tidyTail (xs r : List Str) : List Str := xs.foldr tidy1 r

/-- What the first loop leaves. -/
def tidy : List Str → List Str → List Str
  | [], r => r
  | x :: xs, r => if x = str "." then tidyTail xs r else x :: tidyTail xs r

theorem tidy_snoc (xs : List Str) (x : Str) (r : List Str) : tidy (xs ++ [x]) r =
    tidy xs (if x = str "." ∨ (x = [] ∧ xs ≠ [] ∧ r ≠ []) then r else x :: r) := by
  cases xs with
  | nil => simp [tidy, tidyTail]
  | cons y ys =>
    simp only [List.cons_append, tidy, tidyTail, List.foldr_append, List.foldr_cons, List.foldr_nil]
    have : tidy1 x r = if x = str "." ∨ (x = [] ∧ y :: ys ≠ [] ∧ r ≠ []) then r else x :: r := by
      unfold tidy1
      congr 1
      simp
    rw [this]

theorem pass1_eq (xs r : List Str) : pass1 (xs ++ r) xs.length = some (tidy xs r) := by
  induction xs using List.reverseRecOn generalizing r with
  | nil => rfl
  | append_singleton xs x ih =>
    rw [List.length_append, List.length_singleton, pass1, tidy_snoc]
    have e : (xs ++ [x] ++ r)[xs.length]? = some x := by simp
    rw [e]
    simp only [Option.bind_eq_bind, Option.bind_some]
    have c : (x = str "." ∨ x = [] ∧ xs.length > 0 ∧ xs.length + 1 < (xs ++ [x] ++ r).length) ↔
        (x = str "." ∨ (x = [] ∧ xs ≠ [] ∧ r ≠ [])) := by
      have h1 : xs.length > 0 ↔ xs ≠ [] := List.length_pos_iff
      have h2 : xs.length + 1 < (xs ++ [x] ++ r).length ↔ r ≠ [] := by
        rw [← List.length_pos_iff]; simp
      rw [h1, h2]
    by_cases hc : x = str "." ∨ (x = [] ∧ xs ≠ [] ∧ r ≠ [])
    · rw [if_pos (c.2 hc), if_pos hc]
      have : (xs ++ [x] ++ r).eraseIdx xs.length = xs ++ r := by
        rw [List.append_assoc, List.eraseIdx_append_of_length_le (Nat.le_refl _)]; simp
      rw [this]; exact ih r
    · rw [if_neg (fun h => hc (c.1 h)), if_neg hc]
      have := ih (x :: r)
      rw [List.append_assoc]; exact this

/-- What the second loop does: a stack. -/
def stack1 (s : List Str) (x : Str) : List Str :=
  if s = [] then [x] else if x = str ".." then s.dropLast else s ++ [x]

def resolve (l : List Str) : List Str := l.foldl stack1 []

theorem pass2_eq (n : Nat) : ∀ (pre rest : List Str), rest.length = n → pre ≠ [] →
    pass2 (pre ++ rest) pre.length = some (rest.foldl stack1 pre) := by
  induction n using Nat.strongRecOn with
  | ind n ih =>
    intro pre rest hn hpre
    have hp : 0 < pre.length := List.length_pos_iff.2 hpre
    cases rest with
    | nil => rw [pass2, dif_neg (by simp)]; simp
    | cons x rest =>
      rw [pass2, dif_pos (by simp)]
      have e : (pre ++ x :: rest)[pre.length]'(by simp) = x := by simp
      rw [e, List.foldl_cons]
      unfold stack1
      rw [if_neg hpre]
      split
      · rw [if_neg (by omega)]
        have e1 : (pre ++ x :: rest).take (pre.length - 1) ++ (pre ++ x :: rest).drop (pre.length + 1) = pre.dropLast ++ rest := by
          rw [List.take_append_of_le_length (by omega), ← List.dropLast_eq_take, List.drop_append]
          simp
        simp only [e1]
        by_cases h1 : pre.length = 1
        · have hd : pre.dropLast = [] := by rw [← List.length_eq_zero_iff, List.length_dropLast]; omega
          rw [hd, if_neg (by omega), h1]
          simp only [List.nil_append]
          cases rest with
          | nil => rw [pass2, dif_neg (by simp)]; rfl
          | cons y ys =>
            have := ih ys.length (by rw [← hn]; simp only [List.length_cons]; omega) [y] ys rfl (by simp)
            exact this
        · rw [if_pos (by omega)]
          have := ih rest.length (by rw [← hn]; simp) pre.dropLast rest rfl
            (by intro h; have := congrArg List.length h; rw [List.length_dropLast] at this; simp at this; omega)
          rw [List.length_dropLast] at this
          rw [show pre.length - 1 - 1 + 1 = pre.length - 1 by omega]
          exact this
      · have := ih rest.length (by rw [← hn]; simp) (pre ++ [x]) rest rfl (by simp)
        rw [List.append_assoc, List.length_append] at this
        exact this

theorem pass2_resolve (l : List Str) : pass2 l 1 = some (resolve l) := by
  cases l with
  | nil => rw [pass2, dif_neg (by simp)]; rfl
  | cons x xs => exact pass2_eq _ [x] xs rfl (by simp)

variable (junk : Nat → Str) (hj : ∀ n, (junk n).length = n)
include hj

/-- `normalize` never faults, and computes this. -/
theorem normalize_eq (p : Str) : normalize junk p = some (glue [slash] (resolve (tidy (comps p) []))) := by
  have h1 := pass1_eq (comps p) []
  rw [List.append_nil] at h1
  unfold normalize
  rw [split_comps]
  simp only [Option.bind_eq_bind, Option.bind_some]
  rw [h1]
  simp only [Option.bind_some]
  rw [pass2_resolve]
  simp only [Option.bind_some]
  exact join_glues junk hj _ _

omit hj

/-! ## Normal form and idempotence -/

/-- Only the last part of the tail may be empty, no part is `.`. -/
theorem tidyTail_form (xs : List Str) :
    (∀ x ∈ tidyTail xs [], x ≠ str ".") ∧ (∀ x ∈ (tidyTail xs []).dropLast, x ≠ []) := by
  induction xs with
  | nil => simp [tidyTail]
  | cons x xs ih =>
    have e : tidyTail (x :: xs) [] = tidy1 x (tidyTail xs []) := rfl
    rw [e]
    generalize tidyTail xs [] = r at ih
    unfold tidy1
    split_ifs with h
    · exact ih
    · simp only [not_or, not_and, not_not] at h
      refine ⟨fun y hy => ?_, fun y hy => ?_⟩
      · rcases List.mem_cons.1 hy with rfl | hy
        · exact h.1
        · exact ih.1 y hy
      · cases r with
        | nil => simp at hy
        | cons z zs =>
          rw [List.dropLast_cons_of_ne_nil (by simp)] at hy
          rcases List.mem_cons.1 hy with rfl | hy
          · exact fun h0 => absurd (h.2 h0) (by simp)
          · exact ih.2 y hy

/-- The shape of a tidy list. -/
def Tidy (l : List Str) : Prop := (∀ x ∈ l, x ≠ str ".") ∧ (∀ x ∈ l.tail.dropLast, x ≠ [])

theorem tidy_form (l : List Str) : Tidy (tidy l []) := by
  cases l with
  | nil => simp [tidy, Tidy]
  | cons x xs =>
    have := tidyTail_form xs
    simp only [tidy]
    split_ifs with h
    · refine ⟨this.1, fun y hy => this.2 y ?_⟩
      rw [List.dropLast_eq_take] at hy ⊢
      generalize tidyTail xs [] = r at hy
      cases r with
      | nil => simp at hy
      | cons z zs =>
        cases zs with
        | nil => simp at hy
        | cons w ws =>
          simp only [List.tail_cons, List.length_cons, Nat.add_sub_cancel, List.take_succ_cons] at hy ⊢
          exact List.mem_cons_of_mem _ hy
    · refine ⟨fun y hy => ?_, this.2⟩
      rcases List.mem_cons.1 hy with rfl | hy
      · exact h
      · exact this.1 y hy

theorem stack1_mem (s : List Str) (x : Str) : ∀ y ∈ stack1 s x, y ∈ s ∨ y = x := by
  intro y hy
  unfold stack1 at hy
  split_ifs at hy
  · right; simpa using hy
  · left; exact List.mem_of_mem_dropLast' hy
  · simpa using hy

theorem foldl_stack_mem (l s : List Str) : ∀ y ∈ l.foldl stack1 s, y ∈ s ∨ y ∈ l := by
  induction l generalizing s with
  | nil => intro y hy; exact Or.inl hy
  | cons x xs ih =>
    intro y hy
    rcases ih _ y hy with h | h
    · rcases stack1_mem s x y h with h | rfl
      · exact Or.inl h
      · right; simp
    · right; simp [h]

theorem tail_dropLast_sub (s : List Str) : ∀ y ∈ s.dropLast.tail, y ∈ s.tail := by
  intro y hy
  cases s with
  | nil => exact hy
  | cons a s =>
    cases s with
    | nil => simp at hy
    | cons b s => simp only [List.dropLast_cons_of_ne_nil (List.cons_ne_nil b s), List.tail_cons] at hy ⊢
                  exact List.mem_of_mem_dropLast' hy

theorem stack1_tail (s : List Str) (x : Str) : ∀ y ∈ (stack1 s x).tail, y ∈ s.tail ∨ (s ≠ [] ∧ y = x ∧ x ≠ str "..") := by
  intro y hy
  unfold stack1 at hy
  split_ifs at hy with h1 h2
  · simp at hy
  · exact Or.inl (tail_dropLast_sub s y hy)
  · rw [List.tail_append_of_ne_nil h1] at hy
    rcases List.mem_append.1 hy with h | h
    · exact Or.inl h
    · exact Or.inr ⟨h1, by simpa using h, h2⟩

theorem foldl_stack_tail (l s : List Str) : ∀ y ∈ (l.foldl stack1 s).tail,
    y ∈ s.tail ∨ ((y ∈ l.tail ∨ (s ≠ [] ∧ y ∈ l)) ∧ y ≠ str "..") := by
  induction l generalizing s with
  | nil => intro y hy; exact Or.inl hy
  | cons x xs ih =>
    intro y hy
    rcases ih _ y hy with h | ⟨h, hd⟩
    · rcases stack1_tail s x y h with h | ⟨h2, rfl, h3⟩
      · exact Or.inl h
      · exact Or.inr ⟨Or.inr ⟨h2, by simp⟩, h3⟩
    · refine Or.inr ⟨?_, hd⟩
      rcases h with h | ⟨_, h⟩
      · exact Or.inl (List.mem_of_mem_tail h)
      · exact Or.inl h

/-- A normal form: no `.`, no empty part strictly inside, no `..` except in front. -/
def Normal (l : List Str) : Prop := Tidy l ∧ ∀ x ∈ l.tail, x ≠ str ".."

theorem dropLast_snoc_cases (l : List Str) : l = [] ∨ ∃ i z, l = i ++ [z] := by
  rcases List.eq_nil_or_concat l with h | ⟨i, z, h⟩
  · exact Or.inl h
  · exact Or.inr ⟨i, z, by simpa using h⟩

theorem resolve_normal (l : List Str) (h : Tidy l) : Normal (resolve l) := by
  refine ⟨⟨fun y hy => ?_, ?_⟩, fun y hy => ?_⟩
  · rcases foldl_stack_mem l [] y hy with h' | h'
    · cases h'
    · exact h.1 y h'
  · rcases dropLast_snoc_cases l with rfl | ⟨i, z, rfl⟩
    · simp [resolve]
    · have hi : ∀ y ∈ (resolve i).tail, y ≠ [] := by
        intro y hy
        rcases foldl_stack_tail i [] y hy with h' | ⟨h' | ⟨h', _⟩, _⟩
        · cases h'
        · refine h.2 y ?_
          have hne : i ≠ [] := by rintro rfl; simp at h'
          rw [List.tail_append_of_ne_nil hne, List.dropLast_concat]; exact h'
        · exact absurd rfl h'
      have e : resolve (i ++ [z]) = stack1 (resolve i) z := by simp [resolve]
      rw [e]
      intro y hy
      unfold stack1 at hy
      split_ifs at hy with h1 h2
      · simp at hy
      · exact hi y (tail_dropLast_sub _ y (List.mem_of_mem_dropLast' hy))
      · rw [List.tail_append_of_ne_nil h1, List.dropLast_concat] at hy
        exact hi y hy
  · rcases foldl_stack_tail l [] y hy with h' | ⟨_, h'⟩
    · cases h'
    · exact h'

theorem tidyTail_id (xs : List Str) (h1 : ∀ x ∈ xs, x ≠ str ".") (h2 : ∀ x ∈ xs.dropLast, x ≠ []) :
    tidyTail xs [] = xs := by
  induction xs with
  | nil => rfl
  | cons x xs ih =>
    have e : tidyTail (x :: xs) [] = tidy1 x (tidyTail xs []) := rfl
    have hx : tidyTail xs [] = xs := by
      refine ih (fun y hy => h1 y (by simp [hy])) (fun y hy => h2 y ?_)
      cases xs with
      | nil => simp at hy
      | cons z zs => rw [List.dropLast_cons_of_ne_nil (by simp)]; exact List.mem_cons_of_mem _ hy
    rw [e, hx]
    unfold tidy1
    rw [if_neg]
    rintro (h | ⟨h, hne⟩)
    · exact h1 x (by simp) h
    · exact h2 x (by rw [List.dropLast_cons_of_ne_nil hne]; simp) h

theorem tidy_id (l : List Str) (h : Tidy l) : tidy l [] = l := by
  cases l with
  | nil => rfl
  | cons x xs =>
    simp only [tidy]
    rw [if_neg (h.1 x (by simp)), tidyTail_id xs (fun y hy => h.1 y (by simp [hy])) h.2]

theorem foldl_push (l s : List Str) (hs : s ≠ []) (h : ∀ x ∈ l, x ≠ str "..") : l.foldl stack1 s = s ++ l := by
  induction l generalizing s with
  | nil => simp
  | cons x xs ih =>
    rw [List.foldl_cons]
    have : stack1 s x = s ++ [x] := by
      unfold stack1; rw [if_neg hs, if_neg (h x (by simp))]
    rw [this, ih _ (by simp) (fun y hy => h y (by simp [hy]))]; simp

theorem resolve_id (l : List Str) (h : ∀ x ∈ l.tail, x ≠ str "..") : resolve l = l := by
  cases l with
  | nil => rfl
  | cons x xs => exact foldl_push xs [x] (by simp) h

theorem comps_glue_resolve (l : List Str) (h : ∀ x ∈ l, slash ∉ x) :
    comps (glue [slash] l) = if l = [] then [[]] else l := by
  split_ifs with h0
  · subst h0; rfl
  · exact comps_glue l h0 h

theorem resolve_free (p : Str) : ∀ x ∈ resolve (tidy (comps p) []), slash ∉ x := by
  have tt : ∀ l : List Str, ∀ y ∈ tidyTail l [], y ∈ l := by
    intro l
    induction l with
    | nil => intro y hy; exact hy
    | cons a l ih =>
      intro y hy
      have e : tidyTail (a :: l) [] = tidy1 a (tidyTail l []) := rfl
      rw [e] at hy
      unfold tidy1 at hy
      split_ifs at hy
      · exact List.mem_cons_of_mem _ (ih y hy)
      · rcases List.mem_cons.1 hy with rfl | hy
        · simp
        · exact List.mem_cons_of_mem _ (ih y hy)
  have td : ∀ l : List Str, ∀ y ∈ tidy l [], y ∈ l := by
    intro l y hy
    cases l with
    | nil => exact hy
    | cons a l =>
      simp only [tidy] at hy
      split_ifs at hy
      · exact List.mem_cons_of_mem _ (tt l y hy)
      · rcases List.mem_cons.1 hy with rfl | hy
        · simp
        · exact List.mem_cons_of_mem _ (tt l y hy)
  intro x hx
  rcases foldl_stack_mem _ [] x hx with h | h
  · cases h
  · exact comps_mem_free p x (td _ x h)

theorem normal_iff (l : List Str) (h : Normal l) :
    ∀ i x, l[i]? = some x → x ≠ str "." ∧ (x = str ".." → i = 0) ∧ (x = [] → i = 0 ∨ i + 1 = l.length) := by
  intro i x hx
  refine ⟨h.1.1 x (List.mem_of_getElem? hx), fun hd => ?_, fun he => ?_⟩
  · by_contra hi
    have : x ∈ l.tail := by
      cases l with
      | nil => simp at hx
      | cons a l =>
        obtain ⟨j, rfl⟩ : ∃ j, i = j + 1 := ⟨i - 1, by omega⟩
        exact List.mem_of_getElem? (by simpa using hx)
    exact h.2 x this hd
  · by_contra hi
    simp only [not_or] at hi
    have hlt := (List.getElem?_eq_some_iff.1 hx).1
    refine h.1.2 x ?_ he
    cases l with
    | nil => simp at hx
    | cons a l =>
      obtain ⟨j, rfl⟩ : ∃ j, i = j + 1 := ⟨i - 1, by omega⟩
      simp only [List.getElem?_cons_succ, List.length_cons] at hx hlt hi
      rw [List.tail_cons, List.dropLast_eq_take]
      exact List.mem_of_getElem? (i := j) (by rw [List.getElem?_take_of_lt (by omega)]; exact hx)

include hj

/-- **C22 (normal form).** For every path string, `normalize` returns a path with no `.` component, no empty component
except at the very start or end (a leading or trailing slash), and no `..` except as the first component. -/
theorem C22_normal_form (p : Str) : ∃ q, normalize junk p = some q ∧
    ∀ i x, (comps q)[i]? = some x → x ≠ str "." ∧ (x = str ".." → i = 0) ∧ (x = [] → i = 0 ∨ i + 1 = (comps q).length) := by
  refine ⟨_, normalize_eq junk hj p, ?_⟩
  rw [comps_glue_resolve _ (resolve_free p)]
  split_ifs with h
  · intro i x hx
    have hi : i = 0 := by
      have := (List.getElem?_eq_some_iff.1 hx).1
      simpa using this
    subst hi
    have : x = [] := by simpa using hx.symm
    subst this
    exact ⟨by decide, fun _ => rfl, fun _ => Or.inl rfl⟩
  · exact normal_iff _ (resolve_normal _ (tidy_form _))

/-- **C22 (idempotence).** Normalising twice equals normalising once, for every path string. -/
theorem C22_idempotent (p : Str) : (normalize junk p).bind (normalize junk) = normalize junk p := by
  rw [normalize_eq junk hj p]
  simp only [Option.bind_some]
  rw [normalize_eq junk hj]
  rw [comps_glue_resolve _ (resolve_free p)]
  split_ifs with h
  · rw [h]; rfl
  · have hn := resolve_normal _ (tidy_form (comps p))
    rw [tidy_id _ hn.1, resolve_id _ hn.2]

omit hj

end Verif.Path
