import Verif.Ascii
import Verif.HelpersProps
/-!
# C43: ASCII case mapping; C47 for `lib/ascii.fu`'s `trim`
-/
namespace Verif.Ascii
open Verif

/-! ## Specification -/

def IsUpper (b : Byte) : Prop := 65 ≤ b.toNat ∧ b.toNat ≤ 90
def IsLower (b : Byte) : Prop := 97 ≤ b.toNat ∧ b.toNat ≤ 122
instance (b : Byte) : Decidable (IsUpper b) := by unfold IsUpper; infer_instance
instance (b : Byte) : Decidable (IsLower b) := by unfold IsLower; infer_instance

/-- The upper-case counterpart of a byte: `A` is 65, `a` is 97. -/
def UpperOf (b r : Byte) : Prop := (IsLower b → r.toNat = b.toNat - 32) ∧ (¬ IsLower b → r = b)
/-- The lower-case counterpart of a byte. -/
def LowerOf (b r : Byte) : Prop := (IsUpper b → r.toNat = b.toNat + 32) ∧ (¬ IsUpper b → r = b)

/-! ## Proofs -/

theorem upperB_spec : ∀ b, UpperOf b (upperB b) := by
  have : ∀ n : Fin 256, UpperOf (BitVec.ofFin n) (upperB (BitVec.ofFin n)) := by
    unfold UpperOf IsLower; decide +kernel
  exact fun b => this b.toFin

theorem lowerB_spec : ∀ b, LowerOf b (lowerB b) := by
  have : ∀ n : Fin 256, LowerOf (BitVec.ofFin n) (lowerB (BitVec.ofFin n)) := by
    unfold LowerOf IsUpper; decide +kernel
  exact fun b => this b.toFin

theorem mapLoop (f : Byte → Byte) (s : Str) (body : Nat → Str → Option Str)
    (hbody : ∀ i t c, t[i]? = some c → body i t = some (t.set i (f c))) :
    forUp 0 s.length s body = some (s.map f) := by
  obtain ⟨r, e, h1, h2⟩ := forUp_inv (lo := 0) (hi := s.length) (s := s) (body := body)
    (P := fun k t => t.length = s.length ∧ ∀ i, t[i]? = if i < k then s[i]?.map f else s[i]?)
    (Nat.zero_le _) ⟨rfl, by simp⟩ (by
      rintro k t - hk ⟨h1, h2⟩
      have hkt := h2 k
      simp only [Nat.lt_irrefl, if_false, List.getElem?_eq_getElem hk] at hkt
      refine ⟨_, hbody k t _ hkt, by simpa using h1, fun i => ?_⟩
      rw [List.getElem?_set]
      by_cases e : k = i
      · subst e; simp [h1, hk]
      · rw [if_neg e, h2 i]
        by_cases h : i < k
        · simp [h, Nat.lt_succ_of_lt h]
        · have : ¬ i < k + 1 := by omega
          simp [h, this])
  rw [e]
  congr 1
  apply List.ext_getElem?
  intro i
  rw [h2 i, List.getElem?_map]
  split
  · rfl
  · rename_i h
    rw [List.getElem?_eq_none (by omega)]; rfl

theorem set_same (t : Str) (i : Nat) (c : Byte) (h : t[i]? = some c) : t.set i c = t := by
  apply List.ext_getElem?
  intro j
  rw [List.getElem?_set]
  by_cases e : i = j
  · subst e
    obtain ⟨h1, h2⟩ := List.getElem?_eq_some_iff.1 h
    simp [h1, h2]
  · simp [e]

theorem upper_eq (s : Str) : upper s = some (s.map upperB) := by
  apply mapLoop
  intro i t c h
  rw [h]
  simp only [Option.bind_eq_bind, Option.bind_some]
  unfold upperB
  split
  · rfl
  · rw [set_same t i c h]

theorem lower_eq (s : Str) : lower s = some (s.map lowerB) := by
  apply mapLoop
  intro i t c h
  rw [h]
  simp only [Option.bind_eq_bind, Option.bind_some]
  unfold lowerB
  split
  · rfl
  · rw [set_same t i c h]

/-- **C43 (upper).** For every string `upper` returns a string of the same length in which each byte is the upper-case
counterpart of the byte at the same place: exactly the ASCII letters `a`-`z` change. -/
theorem upper_spec (s : Str) : ∃ r, upper s = some r ∧ r.length = s.length ∧
    ∀ (i : Nat) (b : Byte), s[i]? = some b → ∃ c, r[i]? = some c ∧ UpperOf b c := by
  refine ⟨_, upper_eq s, by simp, fun i b h => ⟨upperB b, by simp [h], upperB_spec b⟩⟩

/-- **C43 (lower).** -/
theorem lower_spec (s : Str) : ∃ r, lower s = some r ∧ r.length = s.length ∧
    ∀ (i : Nat) (b : Byte), s[i]? = some b → ∃ c, r[i]? = some c ∧ LowerOf b c := by
  refine ⟨_, lower_eq s, by simp, fun i b h => ⟨lowerB b, by simp [h], lowerB_spec b⟩⟩

theorem bytewise : ∀ b : Byte, upperB (upperB b) = upperB b ∧ lowerB (lowerB b) = lowerB b ∧
    lowerB (upperB b) = lowerB b ∧ upperB (lowerB b) = upperB b := by
  have : ∀ n : Fin 256, upperB (upperB (.ofFin n)) = upperB (.ofFin n) ∧ lowerB (lowerB (.ofFin n)) = lowerB (.ofFin n) ∧
      lowerB (upperB (.ofFin n)) = lowerB (.ofFin n) ∧ upperB (lowerB (.ofFin n)) = upperB (.ofFin n) := by
    decide +kernel
  exact fun b => this b.toFin

/-- **C43 (laws).** Case mapping is idempotent, and mapping to the other case first makes no difference. -/
theorem case_laws (s : Str) :
    (upper s).bind upper = upper s ∧ (lower s).bind lower = lower s ∧
    (upper s).bind lower = lower s ∧ (lower s).bind upper = upper s := by
  simp only [upper_eq, lower_eq, Option.bind_some, List.map_map, Option.some.injEq]
  refine ⟨?_, ?_, ?_, ?_⟩ <;> apply List.map_congr_left <;> intro b _ <;> simp [bytewise b]

example : upper (str "Hello, w\xe9!") = some (str "HELLO, W\xe9!") := by decide +kernel
example : IsLower (ch 'q') ∧ ¬ IsLower (ch 'Q') := by decide

/-! ## `trim` -/

open Verif.Helpers (Visible visible_iff)

theorem trimStart_spec (s : Str) (k : Nat) (hk : k ≤ s.length) (h : ∀ b ∈ s.take k, ¬ Visible b) :
    trimStart s k ≤ s.length ∧ k ≤ trimStart s k ∧ (∀ b ∈ s.take (trimStart s k), ¬ Visible b) ∧
    (∀ b, s[trimStart s k]? = some b → Visible b) := by
  induction hn : s.length - k using Nat.strongRecOn generalizing k with
  | _ n ih =>
    subst hn
    rw [trimStart]
    split
    · rename_i hlt
      split
      · rename_i hv
        refine ⟨hk, Nat.le_refl _, h, fun b hb => ?_⟩
        rw [List.getElem?_eq_getElem hlt] at hb
        exact (Option.some.inj hb) ▸ (visible_iff _).2 hv
      · rename_i hv
        have := ih _ (by omega) (k + 1) (by omega) (by
          intro b hb
          rw [List.take_succ_eq_append_getElem hlt] at hb
          rcases List.mem_append.1 hb with hb | hb
          · exact h b hb
          · rw [List.mem_singleton.1 hb]; exact fun hc => hv ((visible_iff _).1 hc)) rfl
        exact ⟨this.1, by omega, this.2.2⟩
    · exact ⟨hk, Nat.le_refl _, h, fun b hb => by
        rw [List.getElem?_eq_none (by omega)] at hb; cases hb⟩

theorem trimEnd_spec (s : Str) (start e : Nat) (hs : start ≤ e) (he : e ≤ s.length)
    (h : ∀ b ∈ s.drop e, ¬ Visible b) :
    ∃ r, trimEnd s start e = some r ∧ start ≤ r ∧ r ≤ s.length ∧ (∀ b ∈ s.drop r, ¬ Visible b) ∧
      (start < r → ∀ b, s[r - 1]? = some b → Visible b) := by
  induction e with
  | zero => exact ⟨0, rfl, hs, he, h, by omega⟩
  | succ e ih =>
    unfold trimEnd
    by_cases hgt : e + 1 > start
    · have hlt : e < s.length := by omega
      rw [if_pos hgt, List.getElem?_eq_getElem hlt]
      simp only [Option.bind_eq_bind, Option.bind_some]
      by_cases hv : Visible s[e]
      · rw [if_pos ((visible_iff _).1 hv)]
        refine ⟨e + 1, rfl, hs, he, h, fun _ b hb => ?_⟩
        simp only [Nat.add_sub_cancel, List.getElem?_eq_getElem hlt] at hb
        exact (Option.some.inj hb) ▸ hv
      · rw [if_neg (fun hc => hv ((visible_iff _).2 hc))]
        apply ih (by omega) (by omega)
        intro b hb
        rw [List.drop_eq_getElem_cons hlt] at hb
        rcases List.mem_cons.1 hb with rfl | hb
        · exact hv
        · exact h b hb
    · rw [if_neg hgt]
      exact ⟨e + 1, rfl, hs, he, h, by omega⟩

/-- **C47 (lib/ascii.fu).** Same contract as the helper `trim`. -/
theorem trim_spec (s : Str) : ∃ pre mid post, trim s = some mid ∧ s = pre ++ mid ++ post ∧
    (∀ b ∈ pre, ¬ Visible b) ∧ (∀ b ∈ post, ¬ Visible b) ∧
    (∀ b, mid.head? = some b → Visible b) ∧ (∀ b, mid.getLast? = some b → Visible b) := by
  obtain ⟨h1, -, h3, h4⟩ := trimStart_spec s 0 (Nat.zero_le _) (by simp)
  obtain ⟨r, e, g1, g2, g3, g4⟩ := trimEnd_spec s (trimStart s 0) s.length h1 (Nat.le_refl _) (by simp)
  refine ⟨s.take (trimStart s 0), (s.take r).drop (trimStart s 0), s.drop r, ?_, ?_, h3, g3, ?_, ?_⟩
  · unfold trim; simp only [e, Option.bind_eq_bind, Option.bind_some]
  · conv => lhs; rw [← List.take_append_drop r s]
    congr 1
    conv => lhs; rw [← List.take_append_drop (trimStart s 0) (s.take r)]
    rw [List.take_take, Nat.min_eq_left g1]
  · intro b hb
    rw [List.head?_drop, List.getElem?_take] at hb
    split at hb
    · exact h4 b hb
    · cases hb
  · intro b hb
    rw [List.getLast?_drop, List.length_take] at hb
    split at hb
    · cases hb
    · rename_i hlt
      rw [List.getLast?_take, if_neg (by omega)] at hb
      have hr1 : r - 1 < s.length := by omega
      rw [List.getElem?_eq_getElem hr1] at hb
      apply g4 (by omega) b
      rw [List.getElem?_eq_getElem hr1]
      simpa using hb

example : trim (str "\t x y  ") = some (str "x y") := by decide +kernel

end Verif.Ascii
