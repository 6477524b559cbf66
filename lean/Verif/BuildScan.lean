import Verif.Build
import Verif.PreludeProps
/-!
# Which includes are found in a text: C82
-/
namespace Verif.Build
open Verif

/-- The closing character of a list. -/
def closeL (e : Byte) : Str → Option Nat
  | [] => none
  | c :: t => if c.toNat ≤ 32 then none else if c = e then some 0 else (closeL e t).map (· + 1)

theorem closing_eq (e : Byte) (l : Str) : ∀ (pre : Str), closing (pre ++ l) e pre.length l.length = (closeL e l).map (· + pre.length) := by
  induction l with
  | nil => intro pre; rfl
  | cons c t ih =>
    intro pre
    rw [List.length_cons, closing, List.getElem?_append_right (Nat.le_refl _), Nat.sub_self, List.getElem?_cons_zero, closeL]
    dsimp only
    split
    · rfl
    · split
      · simp
      · have := ih (pre ++ [c])
        rw [List.append_assoc, List.singleton_append, List.length_append] at this
        rw [show pre.length + 1 = pre.length + [c].length from rfl, this, Option.map_map]
        congr 1
        funext x
        simp only [Function.comp, List.length_singleton]
        omega

theorem closeL_iff (e : Byte) (he : 32 < e.toNat) (l : Str) (j : Nat) :
    closeL e l = some j ↔ ∃ f rest, l = f ++ e :: rest ∧ f.length = j ∧ ∀ c ∈ f, 32 < c.toNat ∧ c ≠ e := by
  induction l generalizing j with
  | nil =>
    constructor
    · intro h; cases h
    · rintro ⟨f, rest, h, _⟩; cases f <;> cases h
  | cons c t ih =>
    rw [closeL]
    by_cases h1 : c.toNat ≤ 32
    · rw [if_pos h1]
      constructor
      · intro h; cases h
      · rintro ⟨f, rest, h, _, hf⟩
        cases f with
        | nil => cases h; omega
        | cons a f => cases h; have := (hf c List.mem_cons_self).1; omega
    · rw [if_neg h1]
      by_cases h2 : c = e
      · rw [if_pos h2]
        constructor
        · intro h; cases h
          exact ⟨[], t, by rw [h2]; rfl, rfl, fun c hc => by cases hc⟩
        · rintro ⟨f, rest, h, hl, hf⟩
          cases f with
          | nil => rw [← hl]; rfl
          | cons a f => cases h; exact absurd h2 (hf c List.mem_cons_self).2
      · rw [if_neg h2, Option.map_eq_some_iff]
        constructor
        · rintro ⟨k, hk, rfl⟩
          obtain ⟨f, rest, rfl, rfl, hf⟩ := (ih k).1 hk
          refine ⟨c :: f, rest, rfl, rfl, ?_⟩
          intro x hx
          rcases List.mem_cons.1 hx with rfl | hx
          · exact ⟨by omega, h2⟩
          · exact hf x hx
        · rintro ⟨f, rest, h, hl, hf⟩
          cases f with
          | nil => cases h; exact absurd rfl h2
          | cons a f =>
            cases h
            exact ⟨f.length, (ih _).2 ⟨f, rest, rfl, rfl, fun x hx => hf x (List.mem_cons_of_mem _ hx)⟩, hl⟩

theorem trim_blank (blank : Str) (hb : ∀ c ∈ blank, c.toNat ≤ 32) (c : Byte) (hc : 32 < c.toNat) (t : Str) :
    (blank ++ c :: t).drop (trimLeft (blank ++ c :: t)) = c :: t := by
  have : trimLeft (blank ++ c :: t) = blank.length := by
    unfold trimLeft
    rw [List.findIdx?_append, List.findIdx?_eq_none_iff.2]
    · rw [List.findIdx?_cons]
      simp [hc]
    · intro x hx
      simp only [decide_eq_false_iff_not]
      have := hb x hx
      omega
  rw [this, List.drop_left]

/-- Either a text is blank, or it has a first byte that is not. -/
theorem blank_split (m : Str) : (∀ c ∈ m, c.toNat ≤ 32) ∨ ∃ (blank : Str) (c : Byte) (t : Str), m = blank ++ c :: t ∧ (∀ c ∈ blank, c.toNat ≤ 32) ∧ 32 < c.toNat := by
  induction m with
  | nil => left; intro c hc; cases hc
  | cons a m ih =>
    by_cases ha : a.toNat ≤ 32
    · rcases ih with h | ⟨blank, c, t, rfl, h1, h2⟩
      · left
        intro c hc
        rcases List.mem_cons.1 hc with rfl | hc
        · exact ha
        · exact h c hc
      · right
        refine ⟨a :: blank, c, t, rfl, ?_, h2⟩
        intro x hx
        rcases List.mem_cons.1 hx with rfl | hx
        · exact ha
        · exact h1 x hx
    · exact .inr ⟨[], a, m, rfl, fun c hc => (by cases hc), by omega⟩

theorem head_close (lead e : Byte) (l : Str) : closing (lead :: l) e 1 ((lead :: l).length - 1) = (closeL e l).map (· + 1) :=
  closing_eq e l [lead]

/-- C82.  An include is found in a piece exactly if the piece begins with one. -/
theorem piece_iff (m inc : Str) : parsePiece m = some inc ↔ Directive m inc := by
  rcases blank_split m with hb | ⟨blank, c, t, rfl, hb, hc⟩
  · -- only blanks
    constructor
    · intro h
      unfold parsePiece at h
      have hm : ∀ c ∈ m.drop (trimLeft m), c.toNat ≤ 32 := fun c hc => hb c (List.mem_of_mem_drop hc)
      dsimp only at h
      split at h
      · cases hd : m.drop (trimLeft m) with
        | nil => rw [hd] at h; cases h
        | cons a l =>
          rw [hd] at h hm
          have ha := hm a List.mem_cons_self
          have h1 : a ≠ ch '"' := by rintro rfl; revert ha; decide
          have h2 : a ≠ ch '<' := by rintro rfl; revert ha; decide
          simp [h1, h2] at h
      · cases h
    · intro h
      cases h with
      | quoted blank f rest =>
        have := hb (ch '"') (by simp)
        exact absurd this (by decide)
      | angled blank f rest =>
        have := hb (ch '<') (by simp)
        exact absurd this (by decide)
  · -- `c` is the first byte that is not blank
    have hp : parsePiece (blank ++ c :: t) =
        if (c :: t).length > 2 then
          if c = ch '"' then ((closeL (ch '"') t).map (· + 1)).map fun i => (c :: t).take (i + 1)
          else if c = ch '<' then ((closeL (ch '>') t).map (· + 1)).map fun i => (c :: t).take (i + 1)
          else none
        else none := by
      unfold parsePiece
      rw [trim_blank blank hb c hc t]
      dsimp only [List.head?_cons]
      rw [head_close, head_close]
    rw [hp]
    -- where a directive begins
    have huniq : ∀ (blank' : Str) (d : Byte) (t' : Str), (∀ c ∈ blank', c.toNat ≤ 32) → 32 < d.toNat → blank ++ c :: t = blank' ++ d :: t' → c = d ∧ t = t' := by
      intro blank' d t' hb' hd e
      have h1 := trim_blank blank hb c hc t
      have h2 := trim_blank blank' hb' d hd t'
      rw [e, h2, List.cons.injEq] at h1
      exact ⟨h1.1.symm, h1.2.symm⟩
    have h34 : 32 < (ch '"').toNat := by decide
    have h60 : 32 < (ch '<').toNat := by decide
    have h62 : 32 < (ch '>').toNat := by decide
    have take_f : ∀ (f rest : Str) (e : Byte), (c :: (f ++ e :: rest)).take (f.length + 1 + 1) = c :: f ++ [e] := by
      intro f rest e
      rw [List.take_succ_cons, List.take_append, List.take_of_length_le (by omega)]
      simp
    constructor
    · intro h
      split at h
      · rename_i hlen
        split at h
        · rename_i hq
          subst hq
          rw [Option.map_map, Option.map_eq_some_iff] at h
          obtain ⟨j, hj, rfl⟩ := h
          obtain ⟨f, rest, rfl, rfl, hf⟩ := (closeL_iff _ h34 t j).1 hj
          simp only [Function.comp]
          rw [take_f]
          have : blank ++ ch '"' :: (f ++ ch '"' :: rest) = blank ++ ch '"' :: f ++ ch '"' :: rest := by simp
          rw [this]
          exact .quoted blank f rest hb hf (by simp at hlen; omega)
        · split at h
          · rename_i hq
            subst hq
            rw [Option.map_map, Option.map_eq_some_iff] at h
            obtain ⟨j, hj, rfl⟩ := h
            obtain ⟨f, rest, rfl, rfl, hf⟩ := (closeL_iff _ h62 t j).1 hj
            simp only [Function.comp]
            rw [take_f]
            have : blank ++ ch '<' :: (f ++ ch '>' :: rest) = blank ++ ch '<' :: f ++ ch '>' :: rest := by simp
            rw [this]
            exact .angled blank f rest hb hf (by simp at hlen; omega)
          · cases h
      · cases h
    · intro h
      generalize hm : blank ++ c :: t = m at h
      cases h with
      | quoted blank' f rest hb' hf hl =>
        have e : blank' ++ ch '"' :: f ++ ch '"' :: rest = blank' ++ ch '"' :: (f ++ ch '"' :: rest) := by simp
        rw [e] at hm
        obtain ⟨rfl, rfl⟩ := huniq blank' _ _ hb' h34 hm
        rw [if_pos (by simp; omega), if_pos rfl, (closeL_iff _ h34 _ f.length).2 ⟨f, rest, rfl, rfl, hf⟩]
        simp only [Option.map_some]
        rw [take_f]
      | angled blank' f rest hb' hf hl =>
        have e : blank' ++ ch '<' :: f ++ ch '>' :: rest = blank' ++ ch '<' :: (f ++ ch '>' :: rest) := by simp
        rw [e] at hm
        obtain ⟨rfl, rfl⟩ := huniq blank' _ _ hb' h60 hm
        rw [if_pos (by simp; omega), if_neg (by decide), if_pos rfl, (closeL_iff _ h62 _ f.length).2 ⟨f, rest, rfl, rfl, hf⟩]
        simp only [Option.map_some]
        rw [take_f]

/-- The include that a piece begins with, if any. -/
inductive Found : List Str → List Str → Prop
  | nil : Found [] []
  | one {m inc ms incs} (h : Directive m inc) (t : Found ms incs) : Found (m :: ms) (inc :: incs)
  | skip {m ms incs} (h : ∀ inc, ¬ Directive m inc) (t : Found ms incs) : Found (m :: ms) incs

/-- C82.  The text is cut at every `#include` (from the left, none overlapping, none left over), and the includes are those with which
the pieces after the first begin. -/
theorem scan_spec (src : Str) : ∃ first ms, Prelude.glue (str "#include") (first :: ms) = src ∧ Prelude.Cut (str "#include") (first :: ms) ∧
    Found ms (scanIncludes src) := by
  obtain ⟨ps, e, hg, hcut⟩ := Prelude.split_cuts src (.many (str "#include")) (by decide)
  cases ps with
  | nil => exact absurd hcut (by intro h; cases h)
  | cons first ms =>
    refine ⟨first, ms, hg, hcut, ?_⟩
    unfold scanIncludes
    rw [e]
    show Found ms (ms.filterMap parsePiece)
    clear e hg hcut
    induction ms with
    | nil => exact .nil
    | cons m ms ih =>
      cases hp : parsePiece m with
      | none =>
        rw [List.filterMap_cons_none hp]
        refine .skip ?_ ih
        intro inc h
        rw [(piece_iff m inc).2 h] at hp; cases hp
      | some inc =>
        rw [List.filterMap_cons_some hp]
        exact .one ((piece_iff m inc).1 hp) ih

/-- What is found is unique. -/
theorem found_unique {ms a b : List Str} (h : Found ms a) (h' : Found ms b) : a = b := by
  induction h generalizing b with
  | nil => cases h'; rfl
  | @one m inc ms incs h t ih =>
    cases h' with
    | one h2 t2 =>
      have e1 := (piece_iff _ _).2 h
      have e2 := (piece_iff _ _).2 h2
      rw [e1] at e2; cases e2
      rw [ih t2]
    | skip h2 t2 => exact absurd h (h2 _)
  | skip h t ih =>
    cases h' with
    | one h2 t2 => exact absurd h2 (h _)
    | skip h2 t2 => exact ih t2

end Verif.Build
