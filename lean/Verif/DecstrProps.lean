import Verif.Decstr
/-!
# C14: integers print as their canonical decimal text
-/
namespace Verif.Decstr
open Verif

/-! ## Independent specification: reading decimal numerals -/

/-- Is this byte an ASCII digit? -/
def isDigit (b : Byte) : Prop := 48 ≤ b.toNat ∧ b.toNat ≤ 57

/-- The value of a digit string, most significant digit first. -/
def value (s : Str) : Nat := s.foldl (fun acc b => acc * 10 + (b.toNat - 48)) 0

/-- A canonical unsigned numeral: non-empty, digits only, no leading zero unless it is `"0"`. -/
def Canonical (s : Str) : Prop :=
  s ≠ [] ∧ (∀ b ∈ s, isDigit b) ∧ (s.head? = some (ch '0') → s = [ch '0'])

/-- `s` is *the* decimal text of the integer `n`. -/
def Denotes (s : Str) (n : Int) : Prop :=
  (0 ≤ n ∧ Canonical s ∧ (value s : Int) = n) ∨
  (n < 0 ∧ ∃ t, s = ch '-' :: t ∧ Canonical t ∧ (value t : Int) = -n)

/-! ## Lemmas -/

theorem value_append (s t : Str) : value (s ++ t) = value s * 10 ^ t.length + value t := by
  suffices h : ∀ a, t.foldl (fun acc (b : Byte) => acc * 10 + (b.toNat - 48)) a
      = a * 10 ^ t.length + t.foldl (fun acc (b : Byte) => acc * 10 + (b.toNat - 48)) 0 by
    unfold value; rw [List.foldl_append, h]
  induction t with
  | nil => simp
  | cons b t ih =>
    intro a
    simp only [List.foldl_cons, List.length_cons]
    rw [ih, ih (0 * 10 + _)]
    rw [Nat.pow_succ, Nat.add_mul, Nat.zero_mul, Nat.zero_add, Nat.mul_assoc, Nat.mul_comm 10,
      Nat.add_assoc]

theorem digit_toNat (num : BitVec 64) :
    ((num % 10#64 + 48#64).setWidth 8).toNat = num.toNat % 10 + 48 := by
  simp [BitVec.toNat_umod]
  omega

theorem loop_spec (num : BitVec 64) (res : Str) :
    ∃ s, u64decLoop num res = s ++ res ∧ Canonical s ∧ value s = num.toNat := by
  induction h : num.toNat using Nat.strongRecOn generalizing num res with
  | _ k ih =>
    subst h
    rw [u64decLoop]
    have hd := digit_toNat num
    generalize hdd : (num % 10#64 + 48#64).setWidth 8 = d at hd ⊢
    have hdig : isDigit d := by unfold isDigit; omega
    split
    · rename_i h0
      have h0' : num.toNat / 10 = 0 := by
        have := congrArg BitVec.toNat h0; simpa using this
      refine ⟨[d], rfl, ⟨by simp, by simpa using hdig, ?_⟩, ?_⟩
      · intro h; simpa using h
      · simp [value]; omega
    · rename_i h0
      have h0' : num.toNat / 10 ≠ 0 := by
        intro hh; apply h0; apply BitVec.eq_of_toNat_eq; simpa using hh
      have hk : (num / 10#64).toNat = num.toNat / 10 := by simp
      obtain ⟨s, h1, ⟨h2, h3, h4⟩, h5⟩ := ih (num.toNat / 10) (by omega) (num / 10#64) (d :: res) hk
      refine ⟨s ++ [d], by rw [h1]; simp, ⟨by simp, ?_, ?_⟩, ?_⟩
      · intro b hb
        rcases List.mem_append.1 hb with hb | hb
        · exact h3 b hb
        · rw [List.mem_singleton.1 hb]; exact hdig
      · intro hh
        have : s.head? = some (ch '0') := by
          cases s with
          | nil => exact absurd rfl h2
          | cons a s => simpa using hh
        rw [h4 this] at h5
        have : value [ch '0'] = 0 := by decide
        omega
      · rw [value_append, h5]
        simp [value]; omega

theorem u64dec_spec (num : BitVec 64) : Canonical (u64dec num) ∧ value (u64dec num) = num.toNat := by
  obtain ⟨s, h1, h2, h3⟩ := loop_spec num []
  unfold u64dec; rw [h1]; simpa using ⟨h2, h3⟩

theorem value_pos {s : Str} (hc : Canonical s) : 10 ^ (s.length - 1) ≤ value s ∨ s = [ch '0'] := by
  obtain ⟨h1, h2, h3⟩ := hc
  cases s with
  | nil => exact absurd rfl h1
  | cons b t =>
    by_cases hb : b = ch '0'
    · right; exact h3 (by simp [hb])
    · left
      have := value_append [b] t
      simp only [List.singleton_append] at this
      rw [this]
      have hb' := h2 b (by simp)
      have : b.toNat ≠ 48 := by
        intro h; apply hb; apply BitVec.eq_of_toNat_eq; rw [h]; decide
      unfold isDigit at hb'
      simp only [List.length_cons, Nat.add_sub_cancel]
      have h1 : 1 ≤ value [b] := by simp [value]; omega
      calc 10 ^ t.length = 1 * 10 ^ t.length := by simp
        _ ≤ value [b] * 10 ^ t.length := Nat.mul_le_mul_right _ h1
        _ ≤ _ := Nat.le_add_right _ _

theorem value_lt (s : Str) (h : ∀ b ∈ s, isDigit b) : value s < 10 ^ s.length := by
  induction s with
  | nil => simp [value]
  | cons b t ih =>
    have := value_append [b] t
    simp only [List.singleton_append] at this
    rw [this]
    have hb := h b (by simp)
    have ht := ih (fun x hx => h x (by simp [hx]))
    unfold isDigit at hb
    have h1 : value [b] ≤ 9 := by simp [value]; omega
    have := Nat.mul_le_mul_right (10 ^ t.length) h1
    simp only [List.length_cons, Nat.pow_succ]
    omega

/-- Canonical numerals are unique: equal value means equal text. -/
theorem canonical_unique {s t : Str} (hs : Canonical s) (ht : Canonical t) (h : value s = value t) : s = t := by
  have key : ∀ (s t : Str), s.length = t.length → (∀ b ∈ s, isDigit b) → (∀ b ∈ t, isDigit b) →
      value s = value t → s = t := by
    intro s
    induction s with
    | nil => intro t hl _ _ _; exact (List.length_eq_zero_iff.1 hl.symm).symm
    | cons a s ih =>
      intro t hl h1 h2 hv
      cases t with
      | nil => simp at hl
      | cons b t =>
        have e1 := value_append [a] s
        have e2 := value_append [b] t
        simp only [List.singleton_append] at e1 e2
        have hl' : s.length = t.length := by simpa using hl
        have l1 := value_lt s (fun x hx => h1 x (by simp [hx]))
        have l2 := value_lt t (fun x hx => h2 x (by simp [hx]))
        rw [e1, e2, hl'] at hv
        rw [hl'] at l1
        have hq : value [a] = value [b] := by
          have q1 : (value [a] * 10 ^ t.length + value s) / 10 ^ t.length = value [a] := by
            rw [Nat.add_comm, Nat.add_mul_div_right _ _ (Nat.pow_pos (by decide)), Nat.div_eq_of_lt l1,
              Nat.zero_add]
          have q2 : (value [b] * 10 ^ t.length + value t) / 10 ^ t.length = value [b] := by
            rw [Nat.add_comm, Nat.add_mul_div_right _ _ (Nat.pow_pos (by decide)), Nat.div_eq_of_lt l2,
              Nat.zero_add]
          rw [hv] at q1; omega
        have ha := h1 a (by simp); have hb := h2 b (by simp)
        unfold isDigit at ha hb
        have hab : a = b := by
          apply BitVec.eq_of_toNat_eq
          simp [value] at hq; omega
        subst hab
        rw [ih t hl' (fun x hx => h1 x (by simp [hx])) (fun x hx => h2 x (by simp [hx])) (by omega)]
  have zero : ∀ u : Str, Canonical u → value u = 0 → u = [ch '0'] := by
    intro u hu h0
    rcases value_pos hu with hh | hh
    · have := Nat.pow_pos (n := u.length - 1) (show 0 < 10 by decide); omega
    · exact hh
  have hv0 : value [ch '0'] = 0 := by decide
  have len : ∀ u v : Str, Canonical u → Canonical v → value u = value v → u.length ≤ v.length := by
    intro u v hu hv huv
    rcases value_pos hu with hp | hp
    · have hl := value_lt v hv.2.1
      rw [← huv] at hl
      have := (Nat.pow_lt_pow_iff_right (a := 10) (by decide)).1 (Nat.lt_of_le_of_lt hp hl)
      omega
    · subst hp
      have := zero v hv (by omega)
      rw [this]; exact Nat.le_refl _
  exact key s t (Nat.le_antisymm (len s t hs ht h) (len t s ht hs h.symm)) hs.2.1 ht.2.1 h


/-! ## Properties -/

/-- **C14 (unsigned).**  Formatting any 64-bit unsigned integer gives its decimal text. -/
theorem u64dec_denotes (num : BitVec 64) : Denotes (u64dec num) num.toNat := by
  have := u64dec_spec num
  exact Or.inl ⟨Int.natCast_nonneg _, this.1, by rw [this.2]⟩

/-- **C14 (signed).**  Formatting any 64-bit two's-complement integer, the most negative one included, gives
its decimal text, with a minus sign exactly for negative numbers. -/
theorem i64dec_denotes (num : BitVec 64) : Denotes (i64dec num) num.toInt := by
  unfold i64dec
  have hslt : num.slt 0#64 = decide (num.toInt < 0) := by simp [BitVec.slt]
  rw [hslt]
  split
  · rename_i hneg
    have hneg := of_decide_eq_true hneg
    split
    · rename_i hmin
      subst hmin
      refine Or.inr ⟨by decide, (str "9223372036854775808"), by decide, ⟨by decide, ?_, by decide⟩, by decide⟩
      have : ∀ b ∈ str "9223372036854775808", 48 ≤ b.toNat ∧ b.toNat ≤ 57 := by decide
      exact this
    · rename_i hmin
      have := u64dec_spec (-num)
      refine Or.inr ⟨hneg, u64dec (-num), rfl, this.1, ?_⟩
      rw [this.2]
      have h1 := num.isLt
      have : num.toNat ≠ 0x8000000000000000 := fun h => hmin (BitVec.eq_of_toNat_eq h)
      rw [BitVec.toNat_neg]
      rw [BitVec.toInt_eq_toNat_cond] at hneg ⊢
      split <;> rename_i hc
      · rw [if_pos hc] at hneg; omega
      · omega
  · rename_i hpos
    have hpos : ¬ num.toInt < 0 := by simpa using hpos
    have := u64dec_spec num
    refine Or.inl ⟨by omega, this.1, ?_⟩
    rw [this.2]
    rw [BitVec.toInt_eq_toNat_cond] at hpos ⊢
    have h1 := num.isLt
    split <;> rename_i hc
    · rfl
    · rw [if_neg hc] at hpos; omega

/-- **C14 (uniqueness).**  An integer has only one decimal text, so `Denotes` pins the output down completely. -/
theorem denotes_unique {s t : Str} {n : Int} (hs : Denotes s n) (ht : Denotes t n) : s = t := by
  rcases hs with ⟨h, c1, v1⟩ | ⟨h, s', rfl, c1, v1⟩ <;> rcases ht with ⟨h', c2, v2⟩ | ⟨h', t', rfl, c2, v2⟩
  · exact canonical_unique c1 c2 (by omega)
  · omega
  · omega
  · rw [canonical_unique c1 c2 (by omega)]

/-- **C14 (injectivity).**  Different integers print differently. -/
theorem i64dec_injective {a b : BitVec 64} (h : i64dec a = i64dec b) : a = b := by
  have ha := i64dec_denotes a
  have hb := i64dec_denotes b
  rw [h] at ha
  apply BitVec.eq_of_toInt_eq
  have nd : ∀ t, ¬ Canonical (ch '-' :: t) := by
    intro t hc
    have := (hc.2.1 (ch '-') (by simp)).1
    exact absurd this (by decide)
  rcases ha with ⟨h1, c1, v1⟩ | ⟨h1, s', e1, c1, v1⟩ <;> rcases hb with ⟨h2, c2, v2⟩ | ⟨h2, t', e2, c2, v2⟩
  · omega
  · rw [e2] at c1; exact absurd c1 (nd _)
  · rw [e1] at c2; exact absurd c2 (nd _)
  · rw [e1] at e2
    have : s' = t' := by simpa using e2
    subst this; omega

-- Non-vacuity: concrete runs of the model.
example : u64dec 18446744073709551615#64 = str "18446744073709551615" := by decide +kernel
example : i64dec (-120#64) = str "-120" := by decide +kernel
example : i64dec 0x8000000000000000#64 = str "-9223372036854775808" := by decide +kernel
example : Denotes (str "-120") (-120) := i64dec_denotes (-120#64) |> fun h => by
  have e : i64dec (-120#64) = str "-120" := by decide +kernel
  rw [e] at h; exact h

end Verif.Decstr
