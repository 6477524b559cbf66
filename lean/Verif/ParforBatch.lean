import Verif.Parfor
import Mathlib.Tactic.Linarith
import Mathlib.Tactic.Ring
import Mathlib.Tactic.Tauto
import Mathlib.Tactic.SplitIfs
/-!
# C36: the batches of a parallel loop
-/
namespace Verif.Parfor

/-- The ranges follow each other without gap or overlap from `a` to `b`, in order. -/
def Chain : Nat → Nat → List Range → Prop
  | a, b, [] => a = b
  | a, b, r :: rs => r.start = a ∧ r.start ≤ r.stop ∧ Chain r.stop b rs

theorem chain_append : ∀ (l₁ l₂ : List Range) (a m b : Nat), Chain a m l₁ → Chain m b l₂ → Chain a b (l₁ ++ l₂)
  | [], _, a, m, b, h1, h2 => by simp only [Chain] at h1; subst h1; simpa using h2
  | r :: rs, l₂, a, m, b, h1, h2 => ⟨h1.1, h1.2.1, chain_append rs l₂ _ m b h1.2.2 h2⟩

theorem batches_pos (w n p : Nat) : 1 ≤ batches w n p := by
  unfold batches; dsimp only; split <;> split at * <;> omega

theorem batches_le (w n p : Nat) : batches w n p ≤ max 1 (n / p) := by
  unfold batches; dsimp only; split <;> split at * <;> omega

/-- **C36** The number of batches never exceeds the limit, nor what the minimum batch size allows. -/
theorem batches_bounds (w n p : Nat) :
    1 ≤ batches w n p ∧ batches w n p ≤ maxBatches w ∧ batches w n p ≤ max 1 (n / p) := by
  refine ⟨batches_pos w n p, ?_, batches_le w n p⟩
  have : 1 ≤ maxBatches w := by unfold maxBatches; dsimp only; split <;> omega
  unfold batches; dsimp only; split <;> split at * <;> omega

theorem chain_prefix (per : Nat) : ∀ k, Chain 0 (k * per) ((List.range k).map fun i => ⟨i * per, (i + 1) * per⟩)
  | 0 => by simp [Chain]
  | k + 1 => by
    rw [List.range_succ, List.map_append]
    exact chain_append _ _ _ _ _ (chain_prefix per k)
      ⟨rfl, Nat.mul_le_mul_right _ (Nat.le_succ k), rfl⟩

/-- **C36** The batches are contiguous, in order, and run from 0 to the size. -/
theorem ranges_chain (w n p : Nat) : Chain 0 n (ranges w n p) := by
  unfold ranges
  dsimp only
  obtain ⟨b, hb⟩ : ∃ b, batches w n p = b + 1 := ⟨batches w n p - 1, by have := batches_pos w n p; omega⟩
  rw [hb, List.range_succ, List.map_append]
  refine chain_append _ _ 0 (b * (n / (b + 1))) n ?_ ?_
  · have := chain_prefix (n / (b + 1)) b
    convert this using 1
    apply List.map_congr_left
    intro i hi
    have := List.mem_range.1 hi
    have : ¬ i = b + 1 - 1 := by omega
    simp only [this, if_false]
  · simp only [List.map_cons, List.map_nil, Chain, Nat.add_sub_cancel, if_true, and_true, true_and]
    have h1 := Nat.div_mul_le_self n (b + 1)
    nlinarith [Nat.zero_le (n / (b + 1))]

theorem chain_le : ∀ (l : List Range) (a b : Nat), Chain a b l → a ≤ b
  | [], a, b, h => le_of_eq h
  | r :: rs, a, b, h => by have := chain_le rs _ b h.2.2; have := h.1; have := h.2.1; omega

theorem chain_start_ge : ∀ (l : List Range) (a b : Nat), Chain a b l → ∀ r ∈ l, a ≤ r.start ∧ r.stop ≤ b
  | [], _, _, _, _, hr => by simp at hr
  | x :: xs, a, b, h, r, hr => by
    rcases List.mem_cons.1 hr with rfl | hr
    · exact ⟨le_of_eq h.1.symm, chain_le _ _ _ h.2.2⟩
    · have := chain_start_ge xs _ b h.2.2 r hr
      have := h.1; have := h.2.1; omega

theorem chain_cover : ∀ (l : List Range) (a b : Nat), Chain a b l → ∀ x, a ≤ x → x < b →
    ∃! i : Fin l.length, l[i].start ≤ x ∧ x < l[i].stop
  | [], a, b, h, x, h1, h2 => by simp only [Chain] at h; omega
  | r :: rs, a, b, h, x, h1, h2 => by
    by_cases hx : x < r.stop
    · refine ⟨⟨0, by simp⟩, ⟨by simp; have := h.1; omega, by simpa using hx⟩, ?_⟩
      rintro ⟨i, hi⟩ ⟨h3, h4⟩
      rcases i with _ | i
      · rfl
      · have hi' : i < rs.length := by simpa using hi
        have := chain_start_ge rs _ b h.2.2 rs[i] (List.getElem_mem _)
        simp at h3 h4
        omega
    · obtain ⟨⟨i, hi⟩, ⟨h3, h4⟩, hu⟩ := chain_cover rs _ b h.2.2 x (by omega) h2
      refine ⟨⟨i + 1, by simp; omega⟩, ⟨by simpa using h3, by simpa using h4⟩, ?_⟩
      rintro ⟨k, hk⟩ ⟨h5, h6⟩
      rcases k with _ | k
      · simp at h6; omega
      · have := hu ⟨k, by simpa using hk⟩ ⟨by simpa using h5, by simpa using h6⟩
        simp at this
        simp [this]

/-- **C36** Every index below the size is in exactly one batch, and no batch reaches outside. -/
theorem index_once (w n p : Nat) :
    (∀ x, x < n → ∃! i : Fin (ranges w n p).length, (ranges w n p)[i].start ≤ x ∧ x < (ranges w n p)[i].stop) ∧
    (∀ r ∈ ranges w n p, r.start ≤ r.stop ∧ r.stop ≤ n) := by
  have h := ranges_chain w n p
  refine ⟨fun x hx => chain_cover _ 0 n h x (Nat.zero_le x) hx, fun r hr => ⟨?_, (chain_start_ge _ _ _ h r hr).2⟩⟩
  revert r
  generalize ranges w n p = l at h
  generalize 0 = a at h
  induction l generalizing a with
  | nil => simp
  | cons x xs ih =>
    intro r hr
    rcases List.mem_cons.1 hr with rfl | hr
    · exact h.2.1
    · exact ih x.stop h.2.2 r hr

/-- **C36** Batches are as big as asked for: when the loop is split, none has fewer than `p` indices. -/
theorem batch_size (w n p : Nat) (hp : 1 ≤ p) (h2 : 2 ≤ batches w n p) :
    ∀ r ∈ ranges w n p, p ≤ r.stop - r.start := by
  intro r hr
  have hb := batches_le w n p
  have hb' : batches w n p ≤ n / p := by omega
  have hper : p ≤ n / batches w n p := by
    rw [Nat.le_div_iff_mul_le (by omega)]
    calc p * batches w n p ≤ p * (n / p) := Nat.mul_le_mul_left _ hb'
      _ ≤ n := Nat.mul_div_le n p
  unfold ranges at hr
  dsimp only at hr
  obtain ⟨i, hi, rfl⟩ := List.mem_map.1 hr
  have hi := List.mem_range.1 hi
  have h1 := Nat.div_mul_le_self n (batches w n p)
  generalize n / batches w n p = per at *
  dsimp only
  split
  · next e =>
    have : (i + 1) * per ≤ n := by
      have : i + 1 = batches w n p := by omega
      rw [this]; linarith [Nat.mul_comm per (batches w n p)]
    have : (i + 1) * per = i * per + per := by ring
    omega
  · have : (i + 1) * per = i * per + per := by ring
    omega

/-- A loop of fewer than two batches' worth of indices, or without workers, is a single batch. -/
theorem single_batch (w n p : Nat) (h : n / p < 2 ∨ w = 0) : ranges w n p = [⟨0, n⟩] := by
  have : batches w n p = 1 := by
    unfold batches maxBatches
    rcases h with h | h
    · dsimp only; split <;> split at * <;> split at * <;> omega
    · subst h; simp only [Nat.zero_add, or_true, if_true]; split <;> split at * <;> omega
  simp [ranges, this]

/-- The batch size passed on is at least 1, so the division is defined. -/
theorem perBatchOf_pos (m : Int) : 1 ≤ perBatchOf m := by unfold perBatchOf; split <;> omega

example : ranges 7 100 10 = [⟨0,10⟩,⟨10,20⟩,⟨20,30⟩,⟨30,40⟩,⟨40,50⟩,⟨50,60⟩,⟨60,70⟩,⟨70,80⟩,⟨80,90⟩,⟨90,100⟩] := by decide
example : ranges 7 23 10 = [⟨0,11⟩,⟨11,23⟩] := by decide

/-- C53: there is always at least one worker by default, and never more than there are cores (but one). -/
theorem defaultWorkers_bounds (c : Nat) : 1 ≤ defaultWorkers c ∧ defaultWorkers c ≤ max 1 c := by
  unfold defaultWorkers; split_ifs <;> omega

/-- Value of a string of decimal digits. -/
def decimal (cs : List Char) : Nat := cs.foldl (fun w c => w * 10 + (c.toNat - '0'.toNat)) 0

/-- The environment variable is read as a decimal number when it has at most 4 characters, all digits; anything else
disables the workers with an error message. -/
theorem envWorkers_spec (cs : List Char) :
    envWorkers cs 0 0 = if cs.length ≤ 4 ∧ ∀ c ∈ cs, '0' ≤ c ∧ c ≤ '9' then (decimal cs, false) else (0, true) := by
  suffices H : ∀ cs len w, envWorkers cs len w = if cs.length + len ≤ max 4 len ∧ ∀ c ∈ cs, '0' ≤ c ∧ c ≤ '9'
      then (cs.foldl (fun w c => w * 10 + (c.toNat - '0'.toNat)) w, false) else (0, true) by
    have := H cs 0 0
    simpa [decimal] using this
  intro cs
  induction cs with
  | nil => intro len w; simp [envWorkers]
  | cons c cs ih =>
    intro len w
    rw [envWorkers, ih]
    by_cases h1 : len + 1 > 4
    · have : ¬ (List.length (c :: cs) + len ≤ max 4 len) := by simp; omega
      simp only [h1, true_or, if_true, this, false_and, if_false]
    · by_cases h2 : c < '0' ∨ c > '9'
      · have : ¬ ∀ x ∈ c :: cs, '0' ≤ x ∧ x ≤ '9' := by
          intro h
          have := h c (by simp)
          rcases h2 with h2 | h2
          · exact Char.not_le.2 h2 this.1
          · exact Char.not_le.2 h2 this.2
        rw [if_pos (Or.inr h2), if_neg (fun h => this h.2)]
      · have h3 : '0' ≤ c ∧ c ≤ '9' := by
          rw [not_or] at h2; exact ⟨Char.not_lt.1 h2.1, Char.not_lt.1 h2.2⟩
        rw [if_neg (by tauto)]
        have e1 : max 4 (len + 1) = 4 := by omega
        have e2 : max 4 len = 4 := by omega
        rw [e1, e2]
        have : (cs.length + (len + 1) ≤ 4 ∧ ∀ x ∈ cs, '0' ≤ x ∧ x ≤ '9') ↔
            ((c :: cs).length + len ≤ 4 ∧ ∀ x ∈ c :: cs, '0' ≤ x ∧ x ≤ '9') := by
          simp only [List.length_cons, List.forall_mem_cons, h3, true_and]
          constructor <;> rintro ⟨a, b⟩ <;> exact ⟨by omega, b⟩
        simp only [this, List.foldl_cons]

example : envWorkers ['1','2'] 0 0 = (12, false) ∧ envWorkers ['1','x'] 0 0 = (0, true) := by decide

end Verif.Parfor
