import Verif.LifetimePaths
/-!
# Merging encoded lifetimes
-/
namespace Verif.Lifetime
open Verif

/-! ## The order of the regions -/

theorem and11 : ∀ x < 16, (x &&& 11 = 1) ↔ (x % 4 = 1 ∧ x / 8 % 2 = 0) := by decide
theorem and3 : ∀ x < 16, (x &&& 3) = x % 4 := by decide

theorem static_iff (r : BitVec 32) : isStaticOrZeroes r = true ↔ r.toNat % 4 = 1 ∧ r.toNat / 8 % 2 = 0 := by
  unfold isStaticOrZeroes
  rw [beq_iff_eq, ← BitVec.toNat_inj, BitVec.toNat_and]
  have h : r.toNat &&& (11#32).toNat = (r.toNat % 16) &&& 11 := by
    have e : (11 : Nat) = 15 &&& 11 := by decide
    have e2 : r.toNat % 16 = r.toNat &&& 15 := (Nat.and_two_pow_sub_one_eq_mod r.toNat 4).symm
    rw [e2, Nat.and_assoc, ← e]
    rfl
  rw [h]
  have := and11 (r.toNat % 16) (by omega)
  rw [show (1#32).toNat = 1 from rfl, this]
  omega

theorem outer_iff (r : BitVec 32) : (r &&& 3#32 == 2#32) = true ↔ r.toNat % 4 = 2 := by
  rw [beq_iff_eq, ← BitVec.toNat_inj, BitVec.toNat_and]
  have h : r.toNat &&& (3#32).toNat = r.toNat % 4 := Nat.and_two_pow_sub_one_eq_mod r.toNat 2
  rw [h]
  rfl

theorem temp_iff (r : BitVec 32) : isTemporary r = true ↔ r = 9#32 := by
  unfold isTemporary
  rw [beq_iff_eq]

theorem compare_of_lt {a b : Nat} (h : a < b) : compare a b = .lt := Nat.compare_eq_lt.mpr h
theorem compare_of_gt {a b : Nat} (h : b < a) : compare a b = .gt := Nat.compare_eq_gt.mpr h

theorem compare_congr {a b c d : Nat} (h1 : a < b ↔ c < d) (h2 : b < a ↔ d < c) : compare a b = compare c d := by
  rcases Nat.lt_trichotomy a b with h | h | h
  · rw [compare_of_lt h, compare_of_lt (h1.mp h)]
  · have : c = d := by omega
    subst h; subst this
    rw [Nat.compare_eq_eq.mpr rfl, Nat.compare_eq_eq.mpr rfl]
  · rw [compare_of_gt h, compare_of_gt (h2.mp h)]

/-- The comparison of regions in `merge` is the comparison of their ranks: a total order. -/
theorem cmpRegion_eq (l r : BitVec 32) : cmpRegion l r = compare (rank l) (rank r) := by
  have hl := l.isLt
  have hr := r.isLt
  have s1 := static_iff l
  have s2 := static_iff r
  have o1 := outer_iff l
  have o2 := outer_iff r
  have t1 := temp_iff l
  have t2 := temp_iff r
  have z : (9#32).toNat = 9 := rfl
  have n1 : l = 9#32 → l.toNat = 9 := fun h => by rw [h]; rfl
  have n2 : r = 9#32 → r.toNat = 9 := fun h => by rw [h]; rfl
  unfold cmpRegion rank
  cases c1 : isStaticOrZeroes l <;> cases c2 : isStaticOrZeroes r <;>
    simp only [c1, c2, Bool.false_eq_true, false_iff, true_iff, bne_self_eq_false, if_false, if_true,
      Bool.true_bne, Bool.false_bne, Bool.not_false] at s1 s2 ⊢
  · -- neither is static
    rw [if_neg s1, if_neg s2]
    cases d1 : isTemporary l <;> cases d2 : isTemporary r <;>
      simp only [d1, d2, Bool.false_eq_true, false_iff, true_iff, bne_self_eq_false, if_false, if_true,
        Bool.true_bne, Bool.false_bne, Bool.not_false] at t1 t2 ⊢
    · rw [if_neg t1, if_neg t2]
      by_cases e1 : l.toNat % 4 = 2 <;> by_cases e2 : r.toNat % 4 = 2
      · rw [if_pos (o1.mpr e1), if_pos (o2.mpr e2), if_pos e1, if_pos e2]
        exact compare_congr (by omega) (by omega)
      · rw [if_pos (o1.mpr e1), if_neg (fun h => e2 (o2.mp h)), if_pos e1, if_neg e2, compare_of_gt (by omega)]
      · rw [if_neg (fun h => e1 (o1.mp h)), if_pos (o2.mpr e2), if_neg e1, if_pos e2, compare_of_lt (by omega)]
      · rw [if_neg (fun h => e1 (o1.mp h)), if_neg (fun h => e2 (o2.mp h)), if_neg e1, if_neg e2]
        exact compare_congr (by omega) (by omega)
    · rw [if_neg t1, if_pos t2, compare_of_gt]
      split_ifs <;> omega
    · rw [if_pos t1, if_neg t2, compare_of_lt]
      split_ifs <;> omega
    · rw [if_pos t1, if_pos t2, t1, t2]
      decide
  · have t2' : ¬ r = 9#32 := fun h => by have := n2 h; omega
    rw [if_neg s1, if_neg t2', if_pos s2, compare_of_lt]
    split_ifs <;> omega
  · have t1' : ¬ l = 9#32 := fun h => by have := n1 h; omega
    rw [if_neg s2, if_neg t1', if_pos s1, compare_of_gt]
    split_ifs <;> omega
  · have t1' : ¬ l = 9#32 := fun h => by have := n1 h; omega
    have t2' : ¬ r = 9#32 := fun h => by have := n2 h; omega
    have d1 : isTemporary l = false := by rw [Bool.eq_false_iff]; exact fun h => t1' (t1.mp h)
    have d2 : isTemporary r = false := by rw [Bool.eq_false_iff]; exact fun h => t2' (t2.mp h)
    rw [d1, d2, if_neg t1', if_neg t2', if_pos s1, if_pos s2]
    simp only [bne_self_eq_false, Bool.false_eq_true, if_false]
    rw [if_neg (fun h => by have := o1.mp h; omega), if_neg (fun h => by have := o2.mp h; omega)]
    exact compare_congr (by omega) (by omega)

theorem rank_inj {l r : BitVec 32} (h : rank l = rank r) : l = r := by
  have hl := l.isLt
  have hr := r.isLt
  have n1 : l = 9#32 → l.toNat = 9 := fun h => by rw [h]; rfl
  have n2 : r = 9#32 → r.toNat = 9 := fun h => by rw [h]; rfl
  unfold rank at h
  by_cases c1 : l = 9#32 <;> by_cases c2 : r = 9#32
  · rw [c1, c2]
  · rw [if_pos c1, if_neg c2] at h
    exfalso
    split_ifs at h <;> omega
  · rw [if_neg c1, if_pos c2] at h
    exfalso
    split_ifs at h <;> omega
  · rw [if_neg c1, if_neg c2] at h
    apply BitVec.eq_of_toNat_eq
    split_ifs at h <;> omega

/-! ## The merge on decoded lifetimes -/

/-- How the merge of decoded lifetimes ends. -/
inductive MergedA (σ β : Type) where
  | ret (b : β)
  | rest (s : σ) (l : Regions)

/-- The merge of two decoded lifetimes. -/
def mergeA {σ β : Type} (both : σ → BitVec 32 → Paths → Paths → β ⊕ σ) (either : σ → BitVec 32 × Paths → σ)
    (ld rd : σ → Option β) : Regions → Regions → σ → MergedA σ β
  | [], b, s => match ld s with
    | some r => .ret r
    | none => .rest s b
  | e :: a, [], s => match rd s with
    | some r => .ret r
    | none => .rest s (e :: a)
  | (r, p) :: a, (r', p') :: b, s =>
    if rank r < rank r' then mergeA both either ld rd a ((r', p') :: b) (either s (r, p))
    else if rank r' < rank r then mergeA both either ld rd ((r, p) :: a) b (either s (r', p'))
    else match both s r p p' with
      | .inl x => .ret x
      | .inr s => mergeA both either ld rd a b s
termination_by a b => a.length + b.length

/-- A side of the merge that has passed `pre` and has the regions `l` left. -/
def SideAt (pre : Str) (l : Regions) (s : Side) : Prop :=
  (s.dirty = true ∧ s.offset = pre.length) ∨
  ∃ r ps l', l = (r, ps) :: l' ∧
    s = ⟨pre.length, pre.length + (leb r.toNat).length, pre.length + (leb r.toNat).length + (encPaths ps).length, r, false⟩

theorem encode_cons (r : BitVec 32) (ps : Paths) (l : Regions) :
    encode ((r, ps) :: l) = leb r.toNat ++ encPaths ps ++ encode l := rfl

theorem encode_append (a b : Regions) : encode (a ++ b) = encode a ++ encode b := by
  induction a with
  | nil => rfl
  | cons e a ih =>
    obtain ⟨r, ps⟩ := e
    rw [List.cons_append, encode_cons, encode_cons, ih]
    simp only [List.append_assoc]

theorem parse7bit_region (pre suf : Str) (r : BitVec 32) :
    parse7bit (pre ++ leb r.toNat ++ suf) pre.length = (r, pre.length + (leb r.toNat).length) := by
  obtain ⟨v, e, hv⟩ := parse7bit_leb pre suf r.toNat r.isLt
  rw [e, BitVec.eq_of_toNat_eq hv]

theorem refresh_nil {pre : Str} {s : Side} (h : SideAt pre [] s) : refresh (pre ++ encode []) s = some none := by
  rcases h with ⟨h1, h2⟩ | ⟨r, ps, l', h, _⟩
  · unfold refresh
    rw [if_pos h1, if_neg (by rw [h2]; simp [encode])]
  · cases h

theorem refresh_cons {pre : Str} {r : BitVec 32} {ps : Paths} {l : Regions} {s : Side} (h : SideAt pre ((r, ps) :: l) s)
    (hp : EncPaths ps) :
    refresh (pre ++ encode ((r, ps) :: l)) s = some (some ⟨pre.length, pre.length + (leb r.toNat).length,
      pre.length + (leb r.toNat).length + (encPaths ps).length, r, false⟩) := by
  rcases h with ⟨h1, h2⟩ | ⟨r', ps', l', h, h'⟩
  · have hlen : 1 ≤ (leb r.toNat).length := List.length_pos_iff.mpr (leb_ne_nil _)
    unfold refresh
    rw [if_pos h1, if_pos (by rw [h2, encode_cons]; simp only [List.length_append]; omega), h2]
    have e1 := parse7bit_region pre (encPaths ps ++ encode l) r
    have e2 := walkPaths_enc ps hp (pre ++ leb r.toNat) (encode l)
    have a1 : pre ++ encode ((r, ps) :: l) = pre ++ leb r.toNat ++ (encPaths ps ++ encode l) := by
      rw [encode_cons]; simp
    have a2 : pre ++ encode ((r, ps) :: l) = pre ++ leb r.toNat ++ encPaths ps ++ encode l := by
      rw [encode_cons]; simp
    rw [← a1] at e1
    rw [← a2, List.length_append] at e2
    rw [e1]
    simp only
    rw [e2]
    rfl
  · cases h
    subst h'
    rfl

theorem slice_eq (a b c : Str) : slice (a ++ b ++ c) a.length (a.length + b.length) = b := by
  unfold slice
  rw [List.append_assoc, List.drop_left' rfl, Nat.add_sub_cancel_left, List.take_left' rfl]

/-- The merge of encoded lifetimes is the merge of the decoded ones. -/
theorem mergeLoop_enc {σ β : Type} (v : Visitors σ β) (both : σ → BitVec 32 → Paths → Paths → β ⊕ σ)
    (either : σ → BitVec 32 × Paths → σ)
    (hb : ∀ s r p p', ValidPaths p → ValidPaths p' →
      v.both s (leb r.toNat) (encPaths p) (encPaths p') r = some (both s r p p'))
    (he : ∀ s r p, v.either s (leb r.toNat ++ encPaths p) = either s (r, p))
    (n : Nat) (preL preR : Str) (a b : Regions) (ha : ∀ e ∈ a, ValidPaths e.2) (hb' : ∀ e ∈ b, ValidPaths e.2)
    (L R : Side) (hL : SideAt preL a L) (hR : SideAt preR b R) (s : σ) (hn : a.length + b.length < n) :
    mergeLoop v (preL ++ encode a) (preR ++ encode b) n L R s =
      some (match mergeA both either v.leftDone v.rightDone a b s with
        | .ret x => .ret x
        | .rest s l => .rest s (encode l)) := by
  induction n generalizing preL preR a b L R s with
  | zero => omega
  | succ n ih =>
    unfold mergeLoop
    cases a with
    | nil =>
      rw [refresh_nil hL]
      simp only [Option.bind_eq_bind, Option.bind_some]
      unfold mergeA
      have hrest : (preR ++ encode b).drop (if R.dirty = true then R.offset else R.start) = encode b := by
        rcases hR with ⟨h1, h2⟩ | ⟨r, ps, l', h, h'⟩
        · rw [if_pos h1, h2, List.drop_left' rfl]
        · subst h'
          simp only [Bool.false_eq_true, if_false]
          rw [List.drop_left' rfl]
      cases v.leftDone s with
      | some x => rfl
      | none => simp only [hrest]
    | cons e a =>
      obtain ⟨r, p⟩ := e
      have hp := ha (r, p) (by simp)
      rw [refresh_cons hL hp.enc]
      simp only [Option.bind_eq_bind, Option.bind_some]
      cases b with
      | nil =>
        rw [refresh_nil hR]
        simp only [Option.bind_some]
        unfold mergeA
        cases v.rightDone s with
        | some x => rfl
        | none =>
          simp only [Bool.false_eq_true, if_false]
          rw [List.drop_left' rfl]
      | cons e' b =>
        obtain ⟨r', p'⟩ := e'
        have hp' := hb' (r', p') (by simp)
        rw [refresh_cons hR hp'.enc]
        simp only [Option.bind_some]
        rw [cmpRegion_eq]
        have aL : preL ++ encode ((r, p) :: a) = preL ++ (leb r.toNat ++ encPaths p) ++ encode a := by
          rw [encode_cons]; simp
        have aR : preR ++ encode ((r', p') :: b) = preR ++ (leb r'.toNat ++ encPaths p') ++ encode b := by
          rw [encode_cons]; simp
        have sL : slice (preL ++ encode ((r, p) :: a)) preL.length
            (preL.length + (leb r.toNat).length + (encPaths p).length) = leb r.toNat ++ encPaths p := by
          rw [aL, Nat.add_assoc, ← List.length_append]; exact slice_eq _ _ _
        have sR : slice (preR ++ encode ((r', p') :: b)) preR.length
            (preR.length + (leb r'.toNat).length + (encPaths p').length) = leb r'.toNat ++ encPaths p' := by
          rw [aR, Nat.add_assoc, ← List.length_append]; exact slice_eq _ _ _
        have s1 : slice (preL ++ encode ((r, p) :: a)) preL.length (preL.length + (leb r.toNat).length) = leb r.toNat := by
          have : preL ++ encode ((r, p) :: a) = preL ++ leb r.toNat ++ (encPaths p ++ encode a) := by rw [encode_cons]; simp
          rw [this]; exact slice_eq _ _ _
        have s2 : slice (preL ++ encode ((r, p) :: a)) (preL.length + (leb r.toNat).length)
            (preL.length + (leb r.toNat).length + (encPaths p).length) = encPaths p := by
          have : preL ++ encode ((r, p) :: a) = preL ++ leb r.toNat ++ encPaths p ++ encode a := by rw [encode_cons]; simp
          rw [this, ← List.length_append]; exact slice_eq _ _ _
        have s3 : slice (preR ++ encode ((r', p') :: b)) (preR.length + (leb r'.toNat).length)
            (preR.length + (leb r'.toNat).length + (encPaths p').length) = encPaths p' := by
          have : preR ++ encode ((r', p') :: b) = preR ++ leb r'.toNat ++ encPaths p' ++ encode b := by rw [encode_cons]; simp
          rw [this, ← List.length_append]; exact slice_eq _ _ _
        have nextL : ∀ (x y : Nat) (z : BitVec 32), SideAt (preL ++ (leb r.toNat ++ encPaths p)) a
            ⟨x, y, preL.length + (leb r.toNat).length + (encPaths p).length, z, true⟩ := by
          intro x y z
          refine Or.inl ⟨rfl, ?_⟩
          simp only [List.length_append]; omega
        have nextR : ∀ (x y : Nat) (z : BitVec 32), SideAt (preR ++ (leb r'.toNat ++ encPaths p')) b
            ⟨x, y, preR.length + (leb r'.toNat).length + (encPaths p').length, z, true⟩ := by
          intro x y z
          refine Or.inl ⟨rfl, ?_⟩
          simp only [List.length_append]; omega
        have ha' : ∀ e ∈ a, ValidPaths e.2 := fun e he' => ha e (by simp [he'])
        have hb'' : ∀ e ∈ b, ValidPaths e.2 := fun e he' => hb' e (by simp [he'])
        simp only [List.length_cons] at hn
        rcases Nat.lt_trichotomy (rank r) (rank r') with c | c | c
        · rw [compare_of_lt c]
          simp only
          unfold mergeA
          rw [if_pos c, sL, he]
          have := ih (preL ++ (leb r.toNat ++ encPaths p)) preR a ((r', p') :: b) ha' hb' _
            _ (nextL preL.length (preL.length + (leb r.toNat).length) r)
            (Or.inr ⟨r', p', b, rfl, rfl⟩) (either s (r, p)) (by simp only [List.length_cons]; omega)
          rw [← aL] at this
          exact this
        · rw [Nat.compare_eq_eq.mpr c]
          simp only
          unfold mergeA
          rw [if_neg (by omega), if_neg (by omega), s1, s2, s3]
          have hrr := rank_inj c
          subst hrr
          rw [hb s r p p' hp hp']
          simp only [Option.bind_some]
          cases both s r p p' with
          | inl x => rfl
          | inr s' =>
            simp only
            have := ih (preL ++ (leb r.toNat ++ encPaths p)) (preR ++ (leb r.toNat ++ encPaths p')) a b ha' hb'' _ _
              (nextL preL.length (preL.length + (leb r.toNat).length) r)
              (nextR preR.length (preR.length + (leb r.toNat).length) r) s' (by omega)
            rw [← aL, ← aR] at this
            exact this
        · rw [compare_of_gt c]
          simp only
          unfold mergeA
          rw [if_neg (by omega), if_pos c, sR, he]
          have := ih preL (preR ++ (leb r'.toNat ++ encPaths p')) ((r, p) :: a) b ha hb'' _ _
            (Or.inr ⟨r, p, a, rfl, rfl⟩) (nextR preR.length (preR.length + (leb r'.toNat).length) r')
            (either s (r', p')) (by simp only [List.length_cons]; omega)
          rw [← aR] at this
          exact this

theorem encode_length (l : Regions) : l.length ≤ (encode l).length := by
  induction l with
  | nil => simp
  | cons e l ih =>
    obtain ⟨r, ps⟩ := e
    have hlen : 1 ≤ (leb r.toNat).length := List.length_pos_iff.mpr (leb_ne_nil _)
    rw [encode_cons]; simp only [List.length_append, List.length_cons]; omega

theorem merge_enc {σ β : Type} (v : Visitors σ β) (both : σ → BitVec 32 → Paths → Paths → β ⊕ σ)
    (either : σ → BitVec 32 × Paths → σ)
    (hb : ∀ s r p p', ValidPaths p → ValidPaths p' →
      v.both s (leb r.toNat) (encPaths p) (encPaths p') r = some (both s r p p'))
    (he : ∀ s r p, v.either s (leb r.toNat ++ encPaths p) = either s (r, p))
    (a b : Regions) (ha : ∀ e ∈ a, ValidPaths e.2) (hb' : ∀ e ∈ b, ValidPaths e.2) (s : σ) :
    merge v (encode a) (encode b) s =
      some (match mergeA both either v.leftDone v.rightDone a b s with
        | .ret x => .ret x
        | .rest s l => .rest s (encode l)) := by
  have := mergeLoop_enc v both either hb he ((encode a).length + (encode b).length + 2) [] [] a b ha hb' Side.init Side.init
    (Or.inl ⟨rfl, rfl⟩) (Or.inl ⟨rfl, rfl⟩) s (by
      have := encode_length a
      have := encode_length b
      omega)
  simpa [merge] using this

end Verif.Lifetime
