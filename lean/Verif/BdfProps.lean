import Verif.BdfSpec
/-! # C99: proofs -/
namespace Verif.Bdf

/-! ### rows -/

def nib (hex : BitVec 32) : Nat → List Byte
  | 0 => []
  | n + 1 => (if hex &&& 8#32 ≠ 0 then 255 else 0) :: nib (hex <<< 1) n

theorem nib_length (n : Nat) : ∀ hex, (nib hex n).length = n := by
  induction n with
  | zero => intro _; rfl
  | succ n ih => intro hex; simp [nib, ih]

theorem put_mid (A B C : List Byte) (b v : Byte) : put (A ++ b :: B ++ C) (A.length : Int) v = some (A ++ v :: B ++ C) := by
  unfold put
  rw [if_pos (by simp; omega)]
  congr 1
  rw [show ((A.length : Int)).toNat = A.length from by omega, List.append_assoc, List.set_append_right _ _ (Nat.le_refl _)]
  simp

theorem putBits_mid (n : Nat) : ∀ (A B C : List Byte) (hex : BitVec 32), n ≤ B.length →
    putBits (A ++ B ++ C) (A.length : Int) hex n = some (A ++ (nib hex n ++ B.drop n) ++ C) := by
  induction n with
  | zero => intro A B C hex _; simp [putBits, nib]
  | succ n ih =>
    intro A B C hex hB
    cases B with
    | nil => simp at hB
    | cons b B =>
      unfold putBits
      rw [put_mid]
      dsimp only
      have h := ih (A ++ [if hex &&& 8#32 ≠ 0 then 255 else 0]) B C (hex <<< 1) (by simpa using hB)
      have e : (((A ++ [if hex &&& 8#32 ≠ 0 then (255 : Byte) else 0]).length : Nat) : Int) = (A.length : Int) + 1 := by simp
      rw [e] at h
      have e2 : A ++ (if hex &&& 8#32 ≠ 0 then (255 : Byte) else 0) :: B ++ C
          = A ++ [if hex &&& 8#32 ≠ 0 then (255 : Byte) else 0] ++ B ++ C := by simp
      rw [e2, h]
      congr 1
      simp only [nib, List.drop_succ_cons, List.append_assoc, List.cons_append, List.nil_append]

theorem hexDigit_digit (c : Byte) : (hexDigit c).map BitVec.toNat = digit c ∧
    ∀ hex, hexDigit c = some hex → ∀ n, n ≤ 4 → nib hex n = (pixels hex.toNat).take n := by
  revert c
  have h1 : ∀ c : Byte, (hexDigit c).map BitVec.toNat = digit c := by
    intro c
    have hc := c.isLt
    have e0 : ch '0' = 48#8 := rfl
    have e9 : ch '9' = 57#8 := rfl
    have eA : ch 'A' = 65#8 := rfl
    have eF : ch 'F' = 70#8 := rfl
    unfold hexDigit digit
    rw [e0, e9, eA, eF]
    simp only [BitVec.le_def, BitVec.toNat_ofNat, BitVec.truncate_eq_setWidth, Nat.reducePow, Nat.reduceMod]
    by_cases a : 48 ≤ c.toNat ∧ c.toNat ≤ 57
    · simp only [if_pos a]
      simp
      omega
    · simp only [if_neg a]
      by_cases b : 65 ≤ c.toNat ∧ c.toNat ≤ 70
      · simp only [if_pos b]
        simp
        omega
      · simp only [if_neg b]; rfl
  have h2 : ∀ c : Byte, ∀ hex ∈ hexDigit c, hex.toNat < 16 := by
    intro c hex hh
    have := h1 c
    rw [hh] at this
    unfold digit at this
    simp only [Option.map_some] at this
    by_cases a : 48 ≤ c.toNat ∧ c.toNat ≤ 57
    · rw [if_pos a] at this; simp at this; omega
    · rw [if_neg a] at this
      by_cases b : 65 ≤ c.toNat ∧ c.toNat ≤ 70
      · rw [if_pos b] at this; simp at this; omega
      · rw [if_neg b] at this; simp at this
  have h3 : ∀ v, v < 16 → ∀ n, n ≤ 4 → nib (BitVec.ofNat 32 v) n = (pixels v).take n := by decide
  intro c
  refine ⟨h1 c, fun hex hh n hn => ?_⟩
  have := h3 hex.toNat (h2 c hex hh) n hn
  rwa [BitVec.ofNat_toNat, BitVec.setWidth_eq] at this

theorem pixels_length (v : Nat) : (pixels v).length = 4 := rfl

/-- the row's pixels over what is there -/
def over (B : List Byte) (line : Str) : List Byte := (rowPixels line).take B.length ++ B.drop (rowPixels line).length

theorem putRow_mid (line : Str) : ∀ (A B C : List Byte),
    putRow (A ++ B ++ C) (A.length : Int) B.length line = some (A ++ over B line ++ C) := by
  induction line with
  | nil => intro A B C; simp [putRow, over, rowPixels]
  | cons c cs ih =>
    intro A B C
    unfold putRow
    obtain ⟨hd, hn⟩ := hexDigit_digit c
    cases hh : hexDigit c with
    | none =>
      dsimp only
      rw [ih]
      have : digit c = none := by rw [← hd, hh]; rfl
      simp [over, rowPixels, this]
    | some hex =>
      dsimp only
      have hdig : digit c = some hex.toNat := by rw [← hd, hh]; rfl
      generalize hN : (if B.length < 4 then B.length else 4) = N
      have hN4 : N ≤ 4 := by rw [← hN]; split <;> omega
      have hNB : N ≤ B.length := by rw [← hN]; split <;> omega
      have hmin : N = min 4 B.length := by rw [← hN]; split <;> omega
      rw [putBits_mid N A B C hex hNB]
      dsimp only
      rw [hn hex hh N hN4]
      have hl : ((pixels hex.toNat).take N).length = N := by rw [List.length_take, pixels_length]; omega
      have h := ih (A ++ (pixels hex.toNat).take N) (B.drop N) C
      rw [List.length_append, hl, List.length_drop] at h
      have e : A ++ ((pixels hex.toNat).take N ++ B.drop N) ++ C = A ++ (pixels hex.toNat).take N ++ B.drop N ++ C := by simp
      rw [e, show ((A.length : Int) + (N : Nat)) = ((A.length + N : Nat) : Int) from by omega, h]
      congr 1
      have hrp : rowPixels (c :: cs) = pixels hex.toNat ++ rowPixels cs := by simp [rowPixels, hdig]
      unfold over
      rw [hrp, List.length_append, pixels_length, List.take_append, pixels_length, List.length_drop]
      have e3 : (pixels hex.toNat).take B.length = (pixels hex.toNat).take N := by
        rw [hmin, ← pixels_length hex.toNat, ← List.take_eq_take_min.symm, List.take_eq_take_iff, pixels_length]; omega
      rw [e3, List.drop_drop]
      simp only [List.append_assoc]
      congr 2
      by_cases h4 : 4 ≤ B.length
      · have : N = 4 := by omega
        subst this
        rfl
      · have : N = B.length := by omega
        subst this
        have z : B.length - 4 = 0 := by omega
        rw [Nat.sub_self, z, List.drop_eq_nil_of_le (by omega), List.drop_eq_nil_of_le (by omega)]

theorem over_length (B : List Byte) (line : Str) : (over B line).length = B.length := by
  unfold over; rw [List.length_append, List.length_take, List.length_drop]; omega

theorem over_zero (w : Nat) (line : Str) : over (List.replicate w 0) line = row w line := by
  unfold over row; rw [List.length_replicate, List.drop_replicate]

end Verif.Bdf
