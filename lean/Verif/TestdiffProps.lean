import Verif.Testdiff
import Verif.PreludeProps
import Mathlib.Data.List.Sort
import Mathlib.Data.List.Nodup
/-!
# Serialising test diffs keeps the first occurrence of every entry, in order (C42)
-/
namespace Verif.Testdiff
open Verif

/-- Specification: the entries that did not occur before, in order. -/
def firsts (l : List Str) : List Str := (l.zipIdx.filter fun p => decide (∀ j < p.2, l[j]? ≠ some p.1)).map (·.1)

theorem byteOrder : Prelude.TotalOrder (fun x y : Byte => Prelude.cmpPrim x.toInt y.toInt) where
  eq_iff a b := by rw [Prelude.cmpPrim_total.eq_iff]; exact BitVec.toInt_inj
  flip a b := Prelude.cmpPrim_total.flip _ _
  trans a b c := Prelude.cmpPrim_total.trans _ _ _

theorem strOrder : Prelude.TotalOrder cmpStr := (Prelude.cmpArr_total _ byteOrder (fun _ => 0#8)).2

theorem less1_iff (a b : Dedupe) : less1 a b = true ↔ cmpStr a.data b.data < 0 ∨ (a.data = b.data ∧ a.index < b.index) := by
  unfold less1
  rw [decide_eq_true_iff]
  by_cases h : cmpStr a.data b.data = 0
  · rw [if_neg (by simpa using h), h]
    have := (strOrder.eq_iff _ _).1 h
    unfold Prelude.cmpPrim
    simp only [this, true_and]
    split <;> (try split) <;> omega
  · rw [if_pos h]
    have : a.data ≠ b.data := fun e => h ((strOrder.eq_iff _ _).2 e)
    simp [this]

/-- Both orders given to `std::sort` are strict total orders on entries, so calling it is defined. -/
theorem less_strict : (∀ a, less1 a a = false) ∧ (∀ a b c, less1 a b = true → less1 b c = true → less1 a c = true) ∧
    (∀ a b, less1 a b = false → less1 b a = false → a = b) ∧
    (∀ a, less2 a a = false) ∧ (∀ a b c, less2 a b = true → less2 b c = true → less2 a c = true) := by
  refine ⟨fun a => ?_, fun a b c h1 h2 => ?_, fun a b h1 h2 => ?_, fun a => by simp [less2], fun a b c h1 h2 => ?_⟩
  · rw [Bool.eq_false_iff]; intro h
    rcases (less1_iff a a).1 h with h | h
    · have := (strOrder.eq_iff a.data a.data).2 rfl; omega
    · omega
  · rw [less1_iff] at *
    rcases h1 with h1 | ⟨h1, h1'⟩ <;> rcases h2 with h2 | ⟨h2, h2'⟩
    · exact Or.inl (strOrder.trans _ _ _ h1 h2)
    · left; rwa [← h2]
    · left; rwa [h1]
    · exact Or.inr ⟨h1.trans h2, by omega⟩
  · rw [Bool.eq_false_iff, Ne, less1_iff] at h1 h2
    have e : a.data = b.data := by
      by_contra hne
      have h0 : cmpStr a.data b.data ≠ 0 := fun e => hne ((strOrder.eq_iff _ _).1 e)
      by_cases hlt : cmpStr a.data b.data < 0
      · exact h1 (Or.inl hlt)
      · exact h2 (Or.inl ((strOrder.flip _ _).1 (by omega)))
    have : a.index = b.index := by
      have a1 : ¬ a.index < b.index := fun h => h1 (Or.inr ⟨e, h⟩)
      have a2 : ¬ b.index < a.index := fun h => h2 (Or.inr ⟨e.symm, h⟩)
      omega
    cases a; cases b; simp_all
  · simp only [less2, decide_eq_true_iff] at *; omega

/-- Dropping, in a list, every item whose predecessor has the same data. -/
def adj (prev : Dedupe) : List Dedupe → List Dedupe
  | [] => []
  | b :: r => if prev.data = b.data then adj b r else b :: adj b r

def adjAll : List Dedupe → List Dedupe
  | [] => []
  | a :: r => a :: adj a r

theorem adj_append (prev : Dedupe) (l : List Dedupe) (a b : Dedupe) :
    adj prev (l ++ [a, b]) = adj prev (l ++ [a]) ++ if a.data = b.data then [] else [b] := by
  induction l generalizing prev with
  | nil => simp only [List.nil_append, adj]; split <;> split <;> simp_all
  | cons x xs ih => simp only [List.cons_append, adj, ih]; split <;> simp

/-- The loop, from position `i` down, on a list whose part after `i` is already done. -/
theorem dropDups_eq (i : Nat) : ∀ (l t : List Dedupe), l.length = i + 1 →
    dropDups (l ++ t) i = some (adjAll l ++ t) := by
  induction i with
  | zero =>
    intro l t hl
    obtain ⟨a, rfl⟩ := List.length_eq_one_iff.1 hl
    rfl
  | succ i ih =>
    intro l t hl
    rcases List.eq_nil_or_concat l with rfl | ⟨l1, b, rfl⟩
    · simp at hl
    rcases List.eq_nil_or_concat l1 with rfl | ⟨l2, a, rfl⟩
    · simp at hl
    simp only [List.concat_eq_append] at hl ⊢
    have hl2 : l2.length = i := by simpa using hl
    subst hl2
    have e1 : (l2 ++ [a] ++ [b] ++ t)[l2.length]? = some a := by simp
    have e2 : (l2 ++ [a] ++ [b] ++ t)[l2.length + 1]? = some b := by
      rw [List.append_assoc (l2 ++ [a]), List.getElem?_append_right (by simp)]; simp
    have e3 : (l2 ++ [a] ++ [b] ++ t).take (l2.length + 1) = l2 ++ [a] := by
      rw [List.append_assoc (l2 ++ [a]), List.take_append_of_le_length (by simp), List.take_of_length_le (by simp)]
    have e4 : (l2 ++ [a] ++ [b] ++ t).drop (l2.length + 2) = t := by
      rw [List.drop_append_of_le_length (by simp), List.drop_of_length_le (by simp)]; rfl
    have ha : adjAll (l2 ++ [a] ++ [b]) = adjAll (l2 ++ [a]) ++ if a.data = b.data then [] else [b] := by
      cases l2 with
      | nil => simp only [List.nil_append, List.cons_append, adjAll, adj]
      | cons x xs => simpa [adjAll] using adj_append x xs a b
    rw [dropDups, e1, e2]
    simp only [Option.bind_eq_bind, Option.bind_some]
    rw [e3, e4]
    by_cases h : a.data = b.data
    · rw [if_pos h, ih _ _ (by simp), ha, if_pos h]; simp
    · rw [if_neg h, List.append_assoc _ [b] t, ih _ _ (by simp), ha, if_neg h]; simp

theorem dropDups_all (l : List Dedupe) : dropDups l (l.length - 1) = some (adjAll l) := by
  cases l with
  | nil => rfl
  | cons a r => simpa using dropDups_eq r.length (a :: r) [] (by simp)

/-- The item is the earliest one of its data in the list. -/
def Earliest (l : List Dedupe) (e : Dedupe) : Prop := ∀ e' ∈ l, e'.data = e.data → e = e' ∨ less1 e e' = true

theorem mem_adj (a : Dedupe) (r : List Dedupe) (hs : (a :: r).Pairwise fun x y => less1 x y = true) (e : Dedupe) :
    e ∈ adj a r ↔ e ∈ r ∧ Earliest (a :: r) e := by
  induction r generalizing a with
  | nil => simp [adj]
  | cons b r ih =>
    have hb := hs
    rw [List.pairwise_cons] at hb
    have hab : less1 a b = true := hb.1 b (by simp)
    have ihb := ih b hb.2
    have hb2 := List.pairwise_cons.1 hb.2
    simp only [adj]
    by_cases hd : a.data = b.data
    · rw [if_pos hd, ihb]
      constructor
      · rintro ⟨h1, h2⟩
        refine ⟨by simp [h1], fun e' he' hde => ?_⟩
        rcases List.mem_cons.1 he' with rfl | he'
        · exfalso
          have hbe : b.data = e.data := hd ▸ hde
          rcases h2 b (by simp) hbe with rfl | h3
          · have := hb2.1 _ h1; rw [less_strict.1] at this; cases this
          · have := less_strict.2.1 _ _ _ (hb2.1 e h1) h3
            rw [less_strict.1] at this; cases this
        · exact h2 e' he' hde
      · rintro ⟨h1, h2⟩
        have hne : e ≠ b := by
          rintro rfl
          rcases h2 a (by simp) hd with rfl | h3
          · rw [less_strict.1] at hab; cases hab
          · have := less_strict.2.1 _ _ _ hab h3
            rw [less_strict.1] at this; cases this
        refine ⟨(List.mem_cons.1 h1).resolve_left hne, fun e' he' => h2 e' (List.mem_cons_of_mem _ he')⟩
    · rw [if_neg hd, List.mem_cons, ihb]
      have hlt : cmpStr a.data b.data < 0 := by
        rcases (less1_iff a b).1 hab with h | h
        · exact h
        · exact absurd h.1 hd
      have hnot : ∀ x ∈ b :: r, a.data ≠ x.data := by
        intro x hx e0
        rcases List.mem_cons.1 hx with rfl | hx
        · exact hd e0
        · have h1 := hb2.1 x hx
          rcases (less1_iff b x).1 h1 with h | h
          · have := strOrder.trans _ _ _ hlt h
            rw [(strOrder.eq_iff _ _).2 e0] at this; omega
          · exact hd (e0.trans h.1.symm)
      constructor
      · rintro (rfl | ⟨h1, h2⟩)
        · refine ⟨by simp, fun e' he' hde => ?_⟩
          rcases List.mem_cons.1 he' with rfl | he'
          · exact absurd hde hd
          · rcases List.mem_cons.1 he' with rfl | he'
            · exact Or.inl rfl
            · exact Or.inr (hb2.1 e' he')
        · refine ⟨List.mem_cons_of_mem _ h1, fun e' he' hde => ?_⟩
          rcases List.mem_cons.1 he' with rfl | he'
          · exact absurd hde (hnot e (List.mem_cons_of_mem _ h1))
          · exact h2 e' he' hde
      · rintro ⟨h1, h2⟩
        rcases List.mem_cons.1 h1 with rfl | h1
        · exact Or.inl rfl
        · exact Or.inr ⟨h1, fun e' he' => h2 e' (List.mem_cons_of_mem _ he')⟩

theorem mem_adjAll (l : List Dedupe) (hs : l.Pairwise fun x y => less1 x y = true) (e : Dedupe) :
    e ∈ adjAll l ↔ e ∈ l ∧ Earliest l e := by
  cases l with
  | nil => simp [adjAll]
  | cons a r =>
    have h := List.pairwise_cons.1 hs
    simp only [adjAll, List.mem_cons, mem_adj a r hs e]
    constructor
    · rintro (rfl | h1)
      · refine ⟨Or.inl rfl, fun e' he' _ => ?_⟩
        rcases List.mem_cons.1 he' with rfl | he'
        · exact Or.inl rfl
        · exact Or.inr (h.1 e' he')
      · exact ⟨Or.inr h1.1, h1.2⟩
    · rintro ⟨h1 | h1, h2⟩
      · exact Or.inl h1
      · exact Or.inr ⟨h1, h2⟩

theorem adj_sublist (a : Dedupe) (r : List Dedupe) : (adj a r).Sublist r := by
  induction r generalizing a with
  | nil => exact List.Sublist.refl _
  | cons b r ih =>
    simp only [adj]
    split
    · exact (ih b).cons _
    · exact (ih b).cons_cons _

theorem adjAll_sublist (l : List Dedupe) : (adjAll l).Sublist l := by
  cases l with
  | nil => exact List.Sublist.refl _
  | cons a r => exact (adj_sublist a r).cons_cons _

/-- **C42.** Whatever permutations `std::sort` produces within its contract, `serialize` returns the concatenation of the
first occurrences of the entries, in the original order. -/
theorem serialize_firsts (junk : Nat → Str) (hj : ∀ n, (junk n).length = n) (data : List Str) (out : Str)
    (h : Serialize junk data out) : out = (firsts data).flatten := by
  obtain ⟨s1, d, s2, ⟨hp1, ho1⟩, hd, ⟨hp2, ho2⟩, hjoin⟩ := h
  generalize hD : (data.zipIdx.map fun p => (⟨p.1, p.2⟩ : Dedupe)) = D at hp1
  have hmem : ∀ e : Dedupe, e ∈ D ↔ data[e.index]? = some e.data := by
    intro e
    rw [← hD, List.mem_map]
    constructor
    · rintro ⟨⟨x, i⟩, hm, rfl⟩
      exact (List.mem_zipIdx_iff_getElem?).1 hm
    · intro he
      exact ⟨(e.data, e.index), (List.mem_zipIdx_iff_getElem?).2 he, rfl⟩
  have hDsorted : D.Pairwise fun a b => a.index < b.index := by
    rw [← hD, List.pairwise_map]
    have : ∀ n, (data.zipIdx n).Pairwise fun a b => a.2 < b.2 := by
      intro n
      clear hp1 hD hmem hjoin
      induction data generalizing n with
      | nil => simp
      | cons x xs ih =>
        rw [List.zipIdx_cons, List.pairwise_cons]
        refine ⟨?_, ih _⟩
        rintro ⟨y, j⟩ hm
        have := List.mem_zipIdx hm
        simp only; omega
    exact this 0
  have hDnd : D.Nodup := hDsorted.imp (fun {a b} h => by rintro rfl; omega)
  -- the first sort is strict
  have hs1 : s1.Pairwise fun x y => less1 x y = true := by
    have nd : s1.Nodup := hp1.nodup_iff.2 hDnd
    refine (ho1.and nd).imp ?_
    rintro a b ⟨h1, h2⟩
    by_contra hc
    exact h2 (less_strict.2.2.1 a b (by simpa using hc) h1)
  rw [dropDups_all] at hd
  have hd := Option.some.inj hd
  subst hd
  -- the survivors
  let F := D.filter fun e => decide (∀ j < e.index, data[j]? ≠ some e.data)
  have hF : ∀ e, e ∈ F ↔ e ∈ adjAll s1 := by
    intro e
    rw [mem_adjAll s1 hs1, List.mem_filter, decide_eq_true_iff, hp1.mem_iff]
    constructor
    · rintro ⟨h1, h2⟩
      refine ⟨h1, fun e' he' hde => ?_⟩
      have he' := (hmem e').1 (hp1.mem_iff.1 he')
      by_cases hlt : e'.index < e.index
      · exact absurd (by rw [he', hde]) (h2 _ hlt)
      · by_cases heq : e.index = e'.index
        · left; cases e; cases e'; simp_all
        · right; rw [less1_iff]; right; exact ⟨hde.symm, by omega⟩
    · rintro ⟨h1, h2⟩
      refine ⟨h1, fun j hlt hdat => ?_⟩
      have hm : (⟨e.data, j⟩ : Dedupe) ∈ s1 := hp1.mem_iff.2 ((hmem _).2 hdat)
      rcases h2 _ hm rfl with he | hl
      · rw [he] at hlt; simp at hlt
      · rw [less1_iff] at hl
        rcases hl with hl | hl
        · rw [(strOrder.eq_iff _ _).2 rfl] at hl; omega
        · have := hl.2; simp only at this; omega
  have hFnd : F.Nodup := hDnd.filter _
  have hAnd : (adjAll s1).Nodup := (adjAll_sublist s1).nodup (hp1.nodup_iff.2 hDnd)
  have hperm : s2.Perm F := hp2.trans ((List.perm_ext_iff_of_nodup hAnd hFnd).2 fun e => (hF e).symm)
  have hFs : F.Pairwise fun a b => a.index < b.index := hDsorted.filter _
  have hs2 : s2.Pairwise fun a b => a.index < b.index := by
    have hne : s2.Pairwise fun a b => a.index ≠ b.index := by
      have hsym : F.Pairwise fun a b => a.index ≠ b.index := hFs.imp (fun {a b} h => by omega)
      exact hperm.symm.pairwise hsym (fun {a b} h => Ne.symm h)
    refine (ho2.and hne).imp ?_
    rintro a b ⟨h1, h2⟩
    simp only [less2, decide_eq_false_iff_not] at h1
    omega
  have : s2 = F := by
    refine hperm.eq_of_pairwise (fun a b _ _ h1 h2 => absurd h1 (by omega)) hs2 hFs
  subst this
  rw [Prelude.join_glues junk hj] at hjoin
  have hjoin := Option.some.inj hjoin
  rw [← hjoin]
  have hglue : ∀ l : List Str, Prelude.glue [] l = l.flatten := by
    intro l
    cases l with
    | nil => rfl
    | cons p ps => rw [Prelude.glue_cons]; simp
  show Prelude.glue [] _ = _
  rw [hglue]
  congr 1
  show List.map (·.data) F = _
  simp only [F]
  rw [← hD, List.filter_map, List.map_map]
  rfl

/-- `serialize` always has a result: the sorts exist and no access is out of bounds. -/
theorem serialize_total (junk : Nat → Str) (hj : ∀ n, (junk n).length = n) (data : List Str) :
    ∃ out, Serialize junk data out := by
  have srt : ∀ (less : Dedupe → Dedupe → Bool) (_ : ∀ a b, less a b = true → less b a = false)
      (_ : ∀ a b c, less b a = false → less c b = false → less c a = false) (l : List Dedupe), ∃ r, SortedBy less l r := by
    intro less has htr l
    refine ⟨l.mergeSort (fun a b => !less b a), List.mergeSort_perm _ _, ?_⟩
    have := List.pairwise_mergeSort (le := fun a b => !less b a)
      (fun a b c h1 h2 => by simp only [Bool.not_eq_true'] at *; exact htr a b c h1 h2)
      (fun a b => by
        simp only [Bool.or_eq_true, Bool.not_eq_true']
        by_cases h : less a b = true
        · left; exact has _ _ h
        · right; simpa using h) l
    exact this.imp (fun {a b} h => by simpa using h)
  have asym : ∀ a b, less1 a b = true → less1 b a = false := by
    intro a b h
    by_contra hc
    have := less_strict.2.1 _ _ _ h (by simpa using hc)
    rw [less_strict.1] at this; cases this
  obtain ⟨s1, h1⟩ := srt less1 asym (fun a b c h1 h2 => by
    by_contra hc
    have hca : less1 c a = true := by simpa using hc
    by_cases hab : less1 a b = true
    · have := less_strict.2.1 _ _ _ hca hab; rw [h2] at this; cases this
    · have := less_strict.2.2.1 a b (by simpa using hab) h1
      subst this; rw [h2] at hca; cases hca) (data.zipIdx.map fun p => ⟨p.1, p.2⟩)
  obtain ⟨s2, h2⟩ := srt less2 (fun a b h => by simp only [less2, decide_eq_true_iff, decide_eq_false_iff_not] at *; omega)
    (fun a b c h1 h2 => by simp only [less2, decide_eq_false_iff_not] at *; omega) (adjAll s1)
  exact ⟨_, s1, adjAll s1, s2, h1, dropDups_all s1, h2, Prelude.join_glues junk hj _ _⟩

example : firsts [str "b", str "a", str "b", str "c"] = [str "b", str "a", str "c"] := by decide +kernel

end Verif.Testdiff
