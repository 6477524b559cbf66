import Verif.LifetimeInter
/-!
# C56: `hasTemporary` and `hasStatic`

Both look at a few bytes of the lifetime instead of its regions.
-/
namespace Verif.Lifetime
open Verif

theorem leb_head {n : Nat} (h : n ≠ 0) : ∃ c t, leb n = c :: t ∧ c ≠ 0#8 := by
  by_cases c : n < 128
  · refine ⟨_, _, leb_small c, ?_⟩
    intro h0
    have := congrArg BitVec.toNat h0
    rw [BitVec.toNat_ofNat] at this
    have z : (0#8).toNat = 0 := rfl
    omega
  · refine ⟨_, _, leb_big c, ?_⟩
    intro h0
    have := congrArg BitVec.toNat h0
    rw [BitVec.toNat_ofNat] at this
    have z : (0#8).toNat = 0 := rfl
    omega

/-- The last byte of a 7-bit encoding: below 128, and not zero unless the number is. -/
theorem leb_last (n : Nat) : ∃ t c, leb n = t ++ [c] ∧ c.toNat < 128 ∧ (n ≠ 0 → c ≠ 0#8) ∧ (n < 128 → t = [] ∧ c.toNat = n) := by
  induction n using Nat.strongRecOn with
  | _ n ih =>
    by_cases c : n < 128
    · have hc : (BitVec.ofNat 8 n).toNat = n := by rw [BitVec.toNat_ofNat]; omega
      refine ⟨[], BitVec.ofNat 8 n, leb_small c, by omega, fun h h0 => ?_, fun _ => ⟨rfl, hc⟩⟩
      rw [h0] at hc
      have z : (0#8).toNat = 0 := rfl
      omega
    · obtain ⟨t, x, h1, h2, h3, _⟩ := ih (n / 128) (by omega)
      refine ⟨BitVec.ofNat 8 (128 + n % 128) :: t, x, ?_, h2, fun _ => h3 (by omega), fun h => absurd h c⟩
      rw [leb_big c, h1]
      rfl

/-- The encoding of valid paths does not end in a zero byte. -/
theorem encPaths_last {ps : Paths} (h0 : ps ≠ []) (h : ∀ p ∈ ps, ValidPath p) : ∃ t c, encPaths ps = t ++ [c] ∧ c ≠ 0#8 := by
  induction ps with
  | nil => exact absurd rfl h0
  | cons p ps ih =>
    cases ps with
    | nil =>
      obtain ⟨i, x, rfl⟩ := snoc_of_valid (h p (by simp))
      have hx := (valid_snoc.mp (h _ (List.mem_cons_self ..))).2.1
      obtain ⟨t, c, h1, _, h3, _⟩ := leb_last (2 * x.flatCount + 0)
      refine ⟨encHead (i ++ [x]) ++ leb (2 * x.flatOffset) ++ t, c, ?_, h3 (by omega)⟩
      show encPath true _ = _
      rw [encPath_snoc]
      simp only [if_true]
      rw [h1]
      simp
    | cons p' ps =>
      obtain ⟨t, c, h1, h2⟩ := ih (by simp) (fun q hq => h q (by simp [hq]))
      refine ⟨encPath false p ++ t, c, ?_, h2⟩
      show encPath false p ++ encPaths (p' :: ps) = _
      rw [h1, List.append_assoc]

/-- The encoding of valid paths does not begin with two zero bytes. -/
theorem encPaths_first {ps : Paths} (h0 : ps ≠ []) (h : ∀ p ∈ ps, ValidPath p) (s : Str) :
    ¬ [0#8, 0#8] <+: encPaths ps ++ s := by
  obtain ⟨p, ps, rfl⟩ := List.exists_cons_of_ne_nil h0
  have hp := h p (by simp)
  have key : ∀ last s, ¬ [0#8, 0#8] <+: encPath last p ++ s := by
    intro last s
    cases p with
    | nil => exact hp.elim
    | cons x p =>
      cases p with
      | nil =>
        show ¬ _ <+: leb (2 * x.flatOffset) ++ leb (2 * x.flatCount + if last then 0 else 1) ++ s
        obtain ⟨c, t, h1, h2⟩ := leb_head (n := 2 * x.flatCount + if last then 0 else 1) (by have := hp.1; omega)
        by_cases ho : x.flatOffset = 0
        · rw [ho, leb_small (n := 2 * 0) (by omega), h1]
          rintro ⟨u, hu⟩
          simp only [List.cons_append, List.nil_append, List.cons.injEq] at hu
          exact h2 hu.2.1.symm
        · obtain ⟨d, t', h3, h4⟩ := leb_head (n := 2 * x.flatOffset) (by omega)
          rw [h3]
          rintro ⟨u, hu⟩
          simp only [List.cons_append, List.cons.injEq] at hu
          exact h4 hu.1.symm
      | cons y p =>
        show ¬ _ <+: leb (2 * x.flatOffset + 1) ++ encPath last (y :: p) ++ s
        obtain ⟨d, t', h3, h4⟩ := leb_head (n := 2 * x.flatOffset + 1) (by omega)
        rw [h3]
        rintro ⟨u, hu⟩
        simp only [List.cons_append, List.cons.injEq] at hu
        exact h4 hu.1.symm
  cases ps with
  | nil => exact key true s
  | cons p' ps =>
    show ¬ _ <+: encPath false p ++ encPaths (p' :: ps) ++ s
    rw [List.append_assoc]
    exact key false _

/-- `hasTemporary` answers whether the temporary region (undivided, as it always is) occurs, anywhere in the lifetime. -/
theorem C56_hasTemporary {l : Regions} (hl : Valid l) : hasTemporary (encode l) = true ↔ (9#32, whole) ∈ l := by
  unfold hasTemporary
  rw [List.isPrefixOf_iff_prefix]
  cases l with
  | nil => simp [encode, Region_TEMP]
  | cons e l =>
    obtain ⟨r, ps⟩ := e
    rw [encode_cons]
    have e9 : leb (9#32).toNat = [9#8] := leb_small (by decide)
    by_cases c : r = 9#32
    · subst c
      rw [e9]
      have h1 : Region_TEMP <+: [9#8] ++ encPaths ps ++ encode l ↔ [0#8, 0#8] <+: encPaths ps ++ encode l := by
        show (9#8 :: [0#8, 0#8]) <+: 9#8 :: (encPaths ps ++ encode l) ↔ _
        rw [List.cons_prefix_cons]; simp
      rw [h1]
      by_cases w : ps = whole
      · subst w
        rw [encPaths_whole]
        exact ⟨fun _ => by simp, fun _ => List.prefix_append _ _⟩
      · have hv := hl.head.of_ne w
        refine ⟨fun h => absurd h (encPaths_first hv.1 hv.2 _), fun h => ?_⟩
        rcases List.mem_cons.mp h with h | h
        · simp only [Prod.mk.injEq] at h; exact absurd h.2.symm w
        · have := hl.head_lt h
          simp only at this
          omega
    · constructor
      · rintro ⟨u, hu⟩
        exfalso
        by_cases h128 : r.toNat < 128
        · rw [leb_small h128] at hu
          have h9 : 9#8 = BitVec.ofNat 8 r.toNat := by
            have := congrArg List.head? hu
            simpa [Region_TEMP, byte_TEMP] using this
          have := congrArg BitVec.toNat h9
          rw [BitVec.toNat_ofNat, BitVec.toNat_ofNat] at this
          exact c (BitVec.eq_of_toNat_eq (by show r.toNat = 9; omega))
        · rw [leb_big h128] at hu
          have h9 : 9#8 = BitVec.ofNat 8 (128 + r.toNat % 128) := by
            have := congrArg List.head? hu
            simpa [Region_TEMP, byte_TEMP] using this
          have := congrArg BitVec.toNat h9
          rw [BitVec.toNat_ofNat, BitVec.toNat_ofNat] at this
          omega
      · intro h
        exfalso
        rcases List.mem_cons.mp h with h | h
        · simp only [Prod.mk.injEq] at h; exact c h.1.symm
        · have := hl.head_lt h
          have z : rank (9#32) = 0 := by unfold rank; simp
          simp only at this
          omega

/-- What `hasStatic` looks at: the last region is undivided, and the last byte of its number. -/
theorem hasStatic_eq (l : Regions) (r : BitVec 32) (ps : Paths) (hps : ValidPaths ps) (t : Str) (c : Byte) (hc : leb r.toNat = t ++ [c]) :
    hasStatic (encode (l ++ [(r, ps)])) = (decide (ps = whole) && isStaticOrZeroes (c.signExtend 32)) := by
  have e : encode (l ++ [(r, ps)]) = encode l ++ leb r.toNat ++ encPaths ps := by
    rw [encode_append, encode_cons]; simp [encode]
  rw [e, hc]
  by_cases w : ps = whole
  · subst w
    rw [encPaths_whole]
    unfold hasStatic
    have hlen : (encode l ++ (t ++ [c]) ++ SR_empty).length = (encode l ++ t).length + 3 := by simp [SR_empty]; omega
    have e2 : encode l ++ (t ++ [c]) ++ SR_empty = (encode l ++ t) ++ [c] ++ SR_empty := by simp
    rw [hlen, e2]
    have h1 : ((encode l ++ t) ++ [c] ++ SR_empty).drop ((encode l ++ t).length + 3 - 2) = SR_empty := by
      rw [show (encode l ++ t).length + 3 - 2 = ((encode l ++ t) ++ [c]).length by simp; omega]
      exact List.drop_left' rfl
    have h2 : ((encode l ++ t) ++ [c] ++ SR_empty)[(encode l ++ t).length + 3 - 3]? = some c := by
      rw [Nat.add_sub_cancel, List.append_assoc]
      rw [List.getElem?_append_right (Nat.le_refl _), Nat.sub_self]
      rfl
    simp only [h1, h2]
    simp
  · rw [decide_eq_false w, Bool.false_and]
    obtain ⟨u, d, h1, h2⟩ := encPaths_last (hps.of_ne w).1 (hps.of_ne w).2
    rw [h1]
    unfold hasStatic
    simp only [Bool.and_eq_false_iff]
    left
    by_cases h3 : 3 ≤ (encode l ++ (t ++ [c]) ++ (u ++ [d])).length
    · right
      rw [beq_eq_false_iff_ne]
      intro h
      have := congrArg List.getLast? h
      rw [List.getLast?_drop, if_neg (by omega)] at this
      rw [← List.append_assoc, List.getLast?_append] at this
      simp [SR_empty] at this
      exact h2 this
    · left; simpa using h3

theorem ext_static : ∀ c : Byte, c.toNat < 128 →
    isStaticOrZeroes (c.signExtend 32) = decide (c.toNat % 4 = 1 ∧ c.toNat / 8 % 2 = 0) := by decide +kernel

/-- The region of static storage (1) and that of zeroes (5). -/
def IsStatic (r : BitVec 32) : Prop := r = 1#32 ∨ r = 5#32

/-- `hasStatic` finds the static region wherever it is. -/
theorem C56_hasStatic_complete {l : Regions} (hl : Valid l) (hu : ∀ e ∈ l, e.1.toNat % 4 = 1 ∧ e.1.toNat / 8 % 2 = 0 → IsStatic e.1 ∧ e.2 = whole)
    (h : ∃ e ∈ l, IsStatic e.1) : hasStatic (encode l) = true := by
  obtain ⟨e, he, hs⟩ := h
  have hne : l ≠ [] := List.ne_nil_of_mem he
  obtain ⟨l0, x, rfl⟩ : ∃ l0 x, l = l0 ++ [x] := ⟨l.dropLast, l.getLast hne, (List.dropLast_concat_getLast hne).symm⟩
  obtain ⟨r, ps⟩ := x
  have hsr : ∀ r, IsStatic r → r ≠ 9#32 ∧ r.toNat % 4 = 1 ∧ r.toNat / 8 % 2 = 0 := by
    rintro r (rfl | rfl) <;> decide
  have hstat : r.toNat % 4 = 1 ∧ r.toNat / 8 % 2 = 0 := by
    rcases List.mem_append.mp he with h | h
    · have hlt := (List.pairwise_append.mp hl.sorted).2.2 e h (r, ps) (by simp)
      obtain ⟨n9, s1, s2⟩ := hsr e.1 hs
      unfold rank at hlt
      rw [if_neg n9, if_pos ⟨s1, s2⟩] at hlt
      have := r.isLt
      have := e.1.isLt
      by_contra hno
      simp only at hlt
      by_cases r9 : r = 9#32
      · rw [if_pos r9] at hlt; omega
      · rw [if_neg r9, if_neg hno] at hlt
        split_ifs at hlt <;> omega
    · rw [List.mem_singleton] at h
      subst h
      exact (hsr _ hs).2
  obtain ⟨hr, hw⟩ := hu (r, ps) (by simp) hstat
  simp only at hr hw
  obtain ⟨t, c, h1, h2, _, h4⟩ := leb_last r.toNat
  rw [hasStatic_eq l0 r ps (hl.paths (r, ps) (by simp)) t c h1, decide_eq_true hw, ext_static c h2]
  have : r.toNat < 128 := by rcases hr with rfl | rfl <;> decide
  rw [(h4 this).2]
  simp [hstat]

/-- `hasStatic` is exact when the numbers of the regions are below 128.  Otherwise it may take another region for a static
one: `C56_hasStatic_false_positive`. -/
theorem C56_hasStatic_partial {l : Regions} (hl : Valid l)
    (hu : ∀ e ∈ l, e.1.toNat % 4 = 1 ∧ e.1.toNat / 8 % 2 = 0 → IsStatic e.1 ∧ e.2 = whole) (hs : ∀ e ∈ l, e.1.toNat < 128) :
    hasStatic (encode l) = true ↔ ∃ e ∈ l, IsStatic e.1 := by
  refine ⟨fun h => ?_, C56_hasStatic_complete hl hu⟩
  by_cases hne : l = []
  · subst hne; simp [hasStatic, encode] at h
  obtain ⟨l0, x, rfl⟩ : ∃ l0 x, l = l0 ++ [x] := ⟨l.dropLast, l.getLast hne, (List.dropLast_concat_getLast hne).symm⟩
  obtain ⟨r, ps⟩ := x
  obtain ⟨t, c, h1, h2, _, h4⟩ := leb_last r.toNat
  rw [hasStatic_eq l0 r ps (hl.paths (r, ps) (by simp)) t c h1, ext_static c h2, (h4 (hs (r, ps) (by simp))).2,
    Bool.and_eq_true, decide_eq_true_eq, decide_eq_true_eq] at h
  exact ⟨(r, ps), by simp, (hu (r, ps) (by simp) h.2).1⟩

/-- `hasStatic` takes the lifetime `Lifetime_AAR(-33)`, of storage of the local -33, for static. -/
theorem C56_hasStatic_false_positive :
    ∃ l, Valid l ∧ AAR (BitVec.ofInt 32 (-33)) = encode l ∧ (∀ e ∈ l, unpackLocid e.1 = BitVec.ofInt 32 (-33)) ∧ hasStatic (encode l) = true := by
  have e : encode [(130#32, whole)] = [130#8, 1#8, 0#8, 0#8] := by
    have h : leb (130#32).toNat = [130#8, 1#8] := by
      show leb 130 = _
      rw [leb_big (by decide), leb_small (by decide)]
    rw [encode_cons, h, encPaths_whole]; rfl
  refine ⟨[(130#32, whole)], valid_cons whole_valid (by simp) valid_nil, ?_, ?_, ?_⟩
  · rw [e]; decide +kernel
  · intro x hx
    rw [List.mem_singleton] at hx
    subst hx
    decide
  · rw [e]; decide +kernel

example : hasTemporary [9#8, 0#8, 0#8, 12#8, 0#8, 2#8] = true ∧ hasTemporary [12#8, 0#8, 2#8] = false := by decide
example : hasStatic [12#8, 0#8, 2#8, 1#8, 0#8, 0#8] = true ∧ hasStatic [12#8, 0#8, 2#8] = false := by decide

/-- The hypotheses of `C56_hasStatic_partial` hold of `sampleA`. -/
example : (∀ e ∈ sampleA, e.1.toNat % 4 = 1 ∧ e.1.toNat / 8 % 2 = 0 → IsStatic e.1 ∧ e.2 = whole) ∧
    (∀ e ∈ sampleA, e.1.toNat < 128) ∧ ∃ e ∈ sampleA, IsStatic e.1 := by
  refine ⟨?_, ?_, ⟨(1#32, whole), by simp [sampleA], Or.inl rfl⟩⟩
  · intro e he
    simp only [sampleA, List.mem_cons, List.not_mem_nil, or_false] at he
    rcases he with rfl | rfl
    · intro h; exact absurd h (by decide)
    · intro _; exact ⟨Or.inl rfl, rfl⟩
  · intro e he
    simp only [sampleA, List.mem_cons, List.not_mem_nil, or_false] at he
    rcases he with rfl | rfl <;> decide

end Verif.Lifetime
