import Verif.BitSetProps
import Mathlib.Tactic.Linarith
/-!
# BitSet: negative indices, operation histories (C15) and the set algebra (C16)
-/
namespace Verif.BitSet

/-! ## C15 -/

/-- `add` inserts, `remove` erases, `has` tests, `clear` empties and `clear(start)` keeps the members below `start`; each
reports the truth about the set it was given, and the representation stays canonical. -/
theorem C15_add {d : Data} {S : Set Nat} (h : Rep d S) (i : Nat) (hi : i < 2 ^ 31) :
    ∃ d' r, add d (BitVec.ofNat 32 i) = some (d', r) ∧ Rep d' (insert i S) ∧ (r = true ↔ i ∉ S) := by
  obtain ⟨d', r, e, hm, ht, hr⟩ := add_ok d i hi h.trimmed
  refine ⟨d', r, e, ⟨fun j => ?_, ht⟩, ?_⟩
  · rw [hm, h.mem, Set.mem_insert_iff]
  · rw [hr, h.mem]

theorem C15_remove {d : Data} {S : Set Nat} (h : Rep d S) (i : Nat) (hi : i < 2 ^ 31) :
    ∃ d' r, remove d (BitVec.ofNat 32 i) = some (d', r) ∧ Rep d' (S \ {i}) ∧ (r = true ↔ i ∈ S) := by
  obtain ⟨d', r, e, hm, ht, hr⟩ := remove_ok d i hi h.trimmed
  refine ⟨d', r, e, ⟨fun j => ?_, ht⟩, ?_⟩
  · rw [hm, h.mem, Set.mem_sdiff, Set.mem_singleton_iff, and_comm]
  · rw [hr, h.mem]

theorem C15_has {d : Data} {S : Set Nat} (h : Rep d S) (i : Nat) (hi : i < 2 ^ 31) :
    ∃ r, has d (BitVec.ofNat 32 i) = some r ∧ (r = true ↔ i ∈ S) := by
  obtain ⟨r, e, hr⟩ := has_ok d i hi
  exact ⟨r, e, hr.trans (h.mem i)⟩

theorem C15_clearFrom {d : Data} {S : Set Nat} (h : Rep d S) (i : Nat) (hi : i < 2 ^ 31) :
    ∃ d', clearFrom d (BitVec.ofNat 32 i) = some d' ∧ Rep d' {j ∈ S | j < i} := by
  obtain ⟨d', e, hm, ht⟩ := clearFrom_ok d i hi
  refine ⟨d', e, ⟨fun j => ?_, ht⟩⟩
  rw [hm, h.mem, Set.mem_ofPred_eq, and_comm]

theorem get_neg {d : Data} {i : Int} (h : i < 0) : get d i = none := by unfold get; simp [h]

/-- A negative index is never taken for a member: `add`, `remove` and `has` all stop with an out-of-bounds fault. -/
theorem C15_negative_faults (d : Data) (idx : BitVec 32) (h : idx.toInt < 0) :
    add d idx = none ∧ remove d idx = none ∧ has d idx = none := by
  have hb := bucketOf_neg idx h
  refine ⟨?_, ?_, ?_⟩
  · unfold add
    simp only
    rw [if_neg (by omega), get_neg hb]
  · unfold remove
    simp only
    rw [if_pos (by omega), get_neg hb]
  · unfold has
    simp only
    rw [if_pos (by omega), get_neg hb]

/-- The operations a client may call. -/
inductive Op
  | add (i : Nat) | remove (i : Nat) | has (i : Nat) | clear | clearFrom (i : Nat)

/-- The index of the call is an `int`. -/
def Op.inRange : Op → Prop
  | .add i | .remove i | .has i | .clearFrom i => i < 2 ^ 31
  | .clear => True

/-- The code's effect and answer (`none` inside: no answer). -/
def exec (d : Data) : Op → Option (Data × Option Bool)
  | .add i => (Verif.BitSet.add d (BitVec.ofNat 32 i)).map fun (d', r) => (d', some r)
  | .remove i => (Verif.BitSet.remove d (BitVec.ofNat 32 i)).map fun (d', r) => (d', some r)
  | .has i => (Verif.BitSet.has d (BitVec.ofNat 32 i)).map fun r => (d, some r)
  | .clear => some (Verif.BitSet.clear d, none)
  | .clearFrom i => (Verif.BitSet.clearFrom d (BitVec.ofNat 32 i)).map fun d' => (d', none)

open Classical in
/-- Specification: the same calls on a mathematical set. -/
noncomputable def spec (S : Set Nat) : Op → Set Nat × Option Bool
  | .add i => (insert i S, some (decide (i ∉ S)))
  | .remove i => (S \ {i}, some (decide (i ∈ S)))
  | .has i => (S, some (decide (i ∈ S)))
  | .clear => (∅, none)
  | .clearFrom i => ({j ∈ S | j < i}, none)

/-- A history of calls: the final set and all the answers. -/
def execAll : Data → List Op → Option (Data × List (Option Bool))
  | d, [] => some (d, [])
  | d, o :: os => do
    let (d', r) ← exec d o
    let (d'', rs) ← execAll d' os
    some (d'', r :: rs)

/-- The same history on the mathematical set. -/
noncomputable def specAll : Set Nat → List Op → Set Nat × List (Option Bool)
  | S, [] => (S, [])
  | S, o :: os => ((specAll (spec S o).1 os).1, (spec S o).2 :: (specAll (spec S o).1 os).2)

theorem bool_decide {r : Bool} {p : Prop} [Decidable p] (h : r = true ↔ p) : r = decide p := by
  rw [Bool.eq_iff_iff, h, decide_eq_true_iff]

open Classical in
theorem exec_ok {d : Data} {S : Set Nat} (h : Rep d S) (o : Op) (ho : o.inRange) :
    ∃ d', exec d o = some (d', (spec S o).2) ∧ Rep d' (spec S o).1 := by
  cases o with
  | add i =>
    obtain ⟨d', r, e, hr, hb⟩ := C15_add h i ho
    refine ⟨d', ?_, hr⟩
    simp only [exec, spec, e, Option.map_some, ← bool_decide hb]
  | remove i =>
    obtain ⟨d', r, e, hr, hb⟩ := C15_remove h i ho
    refine ⟨d', ?_, hr⟩
    simp only [exec, spec, e, Option.map_some, ← bool_decide hb]
  | has i =>
    obtain ⟨r, e, hb⟩ := C15_has h i ho
    refine ⟨d, ?_, h⟩
    simp only [exec, spec, e, Option.map_some, ← bool_decide hb]
  | clear => exact ⟨[], rfl, Rep_empty⟩
  | clearFrom i =>
    obtain ⟨d', e, hr⟩ := C15_clearFrom h i ho
    refine ⟨d', ?_, hr⟩
    simp [exec, spec, e]

/-- **C15.** Every history of calls, from the empty set, gives the answers of the mathematical set and ends in an array
that represents it (and only one array represents a set: `C15_canonical`). -/
theorem C15_history (os : List Op) (ho : ∀ o ∈ os, o.inRange) :
    ∃ d, execAll [] os = some (d, (specAll ∅ os).2) ∧ Rep d (specAll ∅ os).1 := by
  suffices H : ∀ (os : List Op) (d : Data) (S : Set Nat), Rep d S → (∀ o ∈ os, o.inRange) →
      ∃ d', execAll d os = some (d', (specAll S os).2) ∧ Rep d' (specAll S os).1 from H os [] ∅ Rep_empty ho
  intro os
  induction os with
  | nil => intro d S h _; exact ⟨d, rfl, h⟩
  | cons o os ih =>
    intro d S h ho
    obtain ⟨d1, e1, h1⟩ := exec_ok h o (ho o (by simp))
    obtain ⟨d2, e2, h2⟩ := ih d1 _ h1 (fun o' h' => ho o' (by simp [h']))
    refine ⟨d2, ?_, h2⟩
    unfold execAll specAll
    simp only [e1, e2, Option.bind_eq_bind, Option.bind_some]

/-- `if (bitset)` is false exactly on the empty set. -/
theorem C15_empty_iff {d : Data} {S : Set Nat} (h : Rep d S) : d = [] ↔ S = ∅ := by
  constructor
  · rintro rfl
    ext i
    rw [← h.mem i]
    simp [Mem]
  · rintro rfl
    exact C15_canonical h Rep_empty

example : execAll [] [.add 3, .add 70, .add 3, .has 70, .remove 70, .has 70, .clearFrom 3] =
    some ([], [some true, some true, some false, some true, some true, some false, none]) := by decide +kernel

/-! ## C16: bytewise loops -/

theorem forUp_bytes (n : Nat) (d : Data) (body : Nat → Data → Option Data) (f : Nat → BitVec 8 → BitVec 8)
    (hn : n ≤ d.length)
    (hbody : ∀ i s, i < n → s.length = d.length → body i s = some (s.set i (f i (byteAt s i)))) :
    ∃ d', forUp 0 n d body = some d' ∧ d'.length = d.length ∧
      ∀ j, byteAt d' j = if j < n then f j (byteAt d j) else byteAt d j := by
  refine forUp_inv (fun k (s : Data) => s.length = d.length ∧
    ∀ j, byteAt s j = if j < k then f j (byteAt d j) else byteAt d j) (Nat.zero_le _) ⟨rfl, fun j => by simp⟩ ?_
  rintro k s _ hk ⟨hl, hb⟩
  refine ⟨_, hbody k s hk hl, by simp [hl], ?_⟩
  intro j
  rw [byteAt_set _ (by omega), hb, hb]
  by_cases hj : j = k
  · subst hj; simp
  · rw [if_neg hj]
    by_cases hj' : j < k
    · rw [if_pos hj', if_pos (by omega)]
    · rw [if_neg hj', if_neg (by omega)]

theorem addAll_ok (d o : Data) (hd : Trimmed d) (ho : Trimmed o) :
    ∃ d', addAll d o = some d' ∧ (∀ j, Mem d' j ↔ Mem d j ∨ Mem o j) ∧ Trimmed d' := by
  unfold addAll
  simp only
  generalize hd1 : (if d.length < o.length then grow d (o.length : Int) else d) = d1
  have hlen : d1.length = max d.length o.length := by
    rw [← hd1]; split
    · rw [grow_length]; simp
    · omega
  have hb : ∀ k, byteAt d1 k = byteAt d k := by
    intro k; rw [← hd1]; split
    · exact byteAt_grow _ _ _
    · rfl
  obtain ⟨d', e, hl, hb'⟩ := forUp_bytes o.length d1 (orBody o) (fun i b => b ||| byteAt o i) (by omega) (by
    intro i s hi hs
    unfold orBody
    rw [get_nat (by omega), get_nat hi]
    simp only [Option.bind_eq_bind, Option.bind_some]
    rw [put_nat _ (by omega)])
  have hb2 : ∀ j, byteAt d' j = byteAt d j ||| byteAt o j := by
    intro j
    rw [hb', hb]
    split
    · rfl
    · next h => rw [byteAt_of_le (d := o) (by omega)]; simp
  refine ⟨d', e, ?_, ?_⟩
  · intro j
    rw [Mem_iff, Mem_iff, Mem_iff, hb2, BitVec.getLsbD_or, Bool.or_eq_true]
  · rw [trimmed_iff, hl, hlen, hb2]
    have or_ne : ∀ a b : BitVec 8, a ≠ 0 ∨ b ≠ 0 → a ||| b ≠ 0 := by
      intro a b h hc
      have := BitVec.or_eq_zero_iff.1 hc
      rcases h with h | h
      · exact h this.1
      · exact h this.2
    rcases trimmed_iff.1 hd with h1 | h1 <;> rcases trimmed_iff.1 ho with h2 | h2
    · left; omega
    · right; apply or_ne; right; rwa [show max d.length o.length = o.length by omega]
    · right; apply or_ne; left; rwa [show max d.length o.length = d.length by omega]
    · right
      apply or_ne
      by_cases h : d.length ≤ o.length
      · right; rwa [show max d.length o.length = o.length by omega]
      · left; rwa [show max d.length o.length = d.length by omega]

theorem removeAll_ok (d o : Data) (hd : Trimmed d) :
    ∃ d', removeAll d o = some d' ∧ (∀ j, Mem d' j ↔ Mem d j ∧ ¬ Mem o j) ∧ Trimmed d' := by
  unfold removeAll
  simp only
  obtain ⟨d', e, hl, hb'⟩ := forUp_bytes (min d.length o.length) d (andNotBody o) (fun i b => b &&& ~~~ byteAt o i)
    (by omega) (by
    intro i s hi hs
    unfold andNotBody
    rw [get_nat (by omega), get_nat (by omega)]
    simp only [Option.bind_eq_bind, Option.bind_some]
    rw [put_nat _ (by omega)])
  rw [e]
  have hb2 : ∀ j, byteAt d' j = byteAt d j &&& ~~~ byteAt o j := by
    intro j
    rw [hb']
    split
    · rfl
    · next h =>
      by_cases hj : d.length ≤ j
      · rw [byteAt_of_le hj]; simp
      · rw [byteAt_of_le (d := o) (by omega)]
        apply byte_ext
        intro k hk
        rw [BitVec.getLsbD_and, BitVec.getLsbD_not]
        simp [hk]
  have hm : ∀ j, Mem d' j ↔ Mem d j ∧ ¬ Mem o j := by
    intro j
    have : j % 8 < 8 := Nat.mod_lt _ (by omega)
    rw [Mem_iff, Mem_iff, Mem_iff, hb2, BitVec.getLsbD_and, BitVec.getLsbD_not]
    simp [this]
  simp only
  split
  · refine ⟨_, rfl, ?_, shrinkToFit_trimmed _⟩
    intro j; rw [Mem_shrinkToFit]; exact hm j
  · next h =>
    refine ⟨_, rfl, hm, ?_⟩
    rw [trimmed_iff, hl, hb', if_neg (by omega)]
    exact trimmed_iff.1 hd

theorem tailBits_spec (i n : Nat) (t : BitVec 8) (h : i % 8 + n ≤ 8) (j : Nat) (hj : j < 8) :
    (tailBits i n t).getLsbD j = (t.getLsbD j || decide (i % 8 ≤ j ∧ j < i % 8 + n)) := by
  induction n generalizing i t with
  | zero => unfold tailBits; simp
  | succ n ih =>
    have hm : i % 8 < 8 := Nat.mod_lt _ (by omega)
    unfold tailBits
    by_cases hw : i % 8 = 7
    · have : n = 0 := by omega
      subst this
      unfold tailBits
      rw [BitVec.getLsbD_or, mask_getLsbD _ _ hm hj]
      congr 1
      apply Bool.eq_iff_iff.2; simp; omega
    · rw [ih (i + 1) _ (by omega), BitVec.getLsbD_or, mask_getLsbD _ _ hm hj, Bool.or_assoc]
      congr 1
      apply Bool.eq_iff_iff.2; simp; omega

/-- The exact effect of `add_range(end)` on any set. -/
theorem addRange_ok (d : Data) (e : Nat) (he : e + 7 < 2 ^ 31) (hd : Trimmed d) :
    ∃ d', addRange d (BitVec.ofNat 32 e) = some d' ∧ Trimmed d' ∧
      ∀ j, Mem d' j ↔ j < e ∨ (Mem d j ∧ ¬ (e % 8 ≠ 0 ∧ j / 8 = e / 8)) := by
  unfold addRange
  simp only
  have hfl : ((BitVec.ofNat 32 e).sshiftRight 3 ||| (BitVec.ofNat 32 e &&& intMin)).toInt = ((e / 8 : Nat) : Int) :=
    bucketOf_ofNat e (by omega)
  have hcl : ((BitVec.ofNat 32 e + 7#32).sshiftRight 3 ||| (BitVec.ofNat 32 e &&& intMin)).toInt
      = (((e + 7) / 8 : Nat) : Int) := by
    rw [and_intMin _ (msb_ofNat e (by omega)), BitVec.or_zero, ← BitVec.ofNat_add, BitVec.toInt_sshiftRight,
      toInt_ofNat' _ (by omega), Int.shiftRight_eq_div_pow]
    omega
  rw [hfl, hcl, toInt_ofNat' e (by omega)]
  generalize hd1 : grow d (((e + 7) / 8 : Nat) : Int) = d1
  have hlen : d1.length = max d.length ((e + 7) / 8) := by rw [← hd1, grow_length, Int.toNat_natCast]
  have hb : ∀ k, byteAt d1 k = byteAt d k := by intro k; rw [← hd1]; exact byteAt_grow _ _ _
  obtain ⟨d2, e2, hl2, hb2⟩ := forUp_bytes (e / 8) d1 fillBody (fun _ _ => 0xff#8) (by omega) (by
    intro i s hi hs
    unfold fillBody
    rw [put_nat _ (by omega)])
  simp only [Int.toNat_natCast]
  rw [e2]
  simp only
  have hff : ∀ j, j < 8 → (0xff#8).getLsbD j = true := by
    intro j hj; exact (show ∀ j : Fin 8, (0xff#8).getLsbD j.val = true by decide) ⟨j, hj⟩
  split
  · next hc =>
    have he8 : e % 8 ≠ 0 := by omega
    have hk : e / 8 < d2.length := by omega
    rw [put_nat _ hk]
    have hn : max 1 (e - (((e / 8 : Nat) : Int) * 8).toNat) = e % 8 := by omega
    have hi : (((e / 8 : Nat) : Int) * 8).toNat = 8 * (e / 8) := by omega
    rw [hn, hi]
    have htail : ∀ j, j < 8 → (tailBits (8 * (e / 8)) (e % 8) 0).getLsbD j = decide (j < e % 8) := by
      intro j hj
      rw [tailBits_spec _ _ _ (by omega) j hj]
      simp
    refine ⟨_, rfl, ?_, ?_⟩
    · rw [trimmed_iff, List.length_set]
      right
      rw [byteAt_set _ hk]
      split
      · rw [byte_ne_zero]
        exact ⟨0, by omega, by rw [htail 0 (by omega)]; simp; omega⟩
      · next h1 =>
        rw [hb2, if_neg (by omega), hb, hl2, hlen]
        rcases trimmed_iff.1 hd with h0 | h0
        · omega
        · rwa [show max d.length ((e + 7) / 8) = d.length by omega]
    · intro j
      have hmj : j % 8 < 8 := Nat.mod_lt _ (by omega)
      rw [Mem_iff, Mem_iff, byteAt_set _ hk]
      split
      · next h =>
        rw [htail _ hmj, decide_eq_true_iff]
        constructor
        · intro h'; left; omega
        · rintro (h' | h')
          · omega
          · exact absurd ⟨he8, h⟩ h'.2
      · next h =>
        rw [hb2, hb]
        split
        · next h' =>
          rw [hff _ hmj]
          exact ⟨fun _ => Or.inl (by omega), fun _ => rfl⟩
        · next h' =>
          constructor
          · intro hm; exact Or.inr ⟨hm, fun hc => h hc.2⟩
          · rintro (h'' | h'')
            · omega
            · exact h''.1
  · next hc =>
    have he8 : e % 8 = 0 := by omega
    refine ⟨_, rfl, ?_, ?_⟩
    · rw [trimmed_iff, hb2, hl2, hlen, hb]
      by_cases hz : max d.length ((e + 7) / 8) = 0
      · exact Or.inl hz
      · right
        split
        · decide
        · next h1 =>
          rcases trimmed_iff.1 hd with h0 | h0
          · omega
          · rwa [show max d.length ((e + 7) / 8) = d.length by omega]
    · intro j
      have hmj : j % 8 < 8 := Nat.mod_lt _ (by omega)
      rw [Mem_iff, Mem_iff, hb2, hb]
      split
      · next h' =>
        rw [hff _ hmj]
        exact ⟨fun _ => Or.inl (by omega), fun _ => rfl⟩
      · next h' =>
        constructor
        · intro hm; exact Or.inr ⟨hm, fun hc => hc.1 he8⟩
        · rintro (h'' | h'')
          · omega
          · exact h''.1

/-! ## C16 -/

/-- `add(other)` and `|=` are set union. -/
theorem C16_union {d o : Data} {S T : Set Nat} (hd : Rep d S) (ho : Rep o T) :
    ∃ d', addAll d o = some d' ∧ Rep d' (S ∪ T) := by
  obtain ⟨d', e, hm, ht⟩ := addAll_ok d o hd.trimmed ho.trimmed
  exact ⟨d', e, fun j => by rw [hm, hd.mem, ho.mem, Set.mem_union], ht⟩

/-- `remove(other)` is set difference. -/
theorem C16_difference {d o : Data} {S T : Set Nat} (hd : Rep d S) (ho : Rep o T) :
    ∃ d', removeAll d o = some d' ∧ Rep d' (S \ T) := by
  obtain ⟨d', e, hm, ht⟩ := removeAll_ok d o hd.trimmed
  exact ⟨d', e, fun j => by rw [hm, hd.mem, ho.mem, Set.mem_sdiff], ht⟩

/-- What `add_range(end)` should do: add `0, …, end - 1` and keep every other member.  Proved for the sets with no member
between `end` and the next multiple of 8; in general it is false (`C16_addRange_loses_members`). -/
theorem C16_addRange_partial {d : Data} {S : Set Nat} (hd : Rep d S) (e : Nat) (he : e + 7 < 2 ^ 31)
    (hgap : ∀ j ∈ S, e ≤ j → ¬ (e % 8 ≠ 0 ∧ j < 8 * (e / 8) + 8)) :
    ∃ d', addRange d (BitVec.ofNat 32 e) = some d' ∧ Rep d' ({j | j < e} ∪ S) := by
  obtain ⟨d', e', ht, hm⟩ := addRange_ok d e he hd.trimmed
  refine ⟨d', e', fun j => ?_, ht⟩
  rw [hm, hd.mem, Set.mem_union, Set.mem_ofPred_eq]
  constructor
  · rintro (h | h)
    · exact Or.inl h
    · exact Or.inr h.1
  · rintro (h | h)
    · exact Or.inl h
    · by_cases hj : j < e
      · exact Or.inl hj
      · exact Or.inr ⟨h, fun hc => hgap j h (by omega) ⟨hc.1, by omega⟩⟩

/-- On the empty set `add_range(end)` gives exactly `{0, …, end - 1}`. -/
theorem C16_addRange_empty (e : Nat) (he : e + 7 < 2 ^ 31) :
    ∃ d', addRange [] (BitVec.ofNat 32 e) = some d' ∧ Rep d' {j | j < e} := by
  obtain ⟨d', e', h⟩ := C16_addRange_partial Rep_empty e he (by simp)
  exact ⟨d', e', by simpa using h⟩

/-- Finding: `add_range` on a set that already has members in the last, partial byte of the range drops them:
`{7}` with `add_range(3)` becomes `{0, 1, 2}`. -/
theorem C16_addRange_loses_members :
    ∃ d d' : Data, Rep d {7} ∧ addRange d (BitVec.ofNat 32 3) = some d' ∧ ¬ Mem d' 7 := by
  refine ⟨[0x80#8], [7#8], ⟨fun i => ?_, by intro b h; simp at h; subst h; decide⟩, by decide +kernel, by unfold Mem; decide⟩
  rw [Mem_iff, Set.mem_singleton_iff]
  by_cases h : i < 8
  · rw [show i / 8 = 0 by omega, show i % 8 = i by omega]
    exact (show ∀ i : Fin 8, (byteAt [0x80#8] 0).getLsbD i.val = true ↔ i.val = 7 by decide) ⟨i, h⟩
  · rw [byteAt_of_le (by simp; omega)]
    simp; omega

/-- `negated(end)` is `{0, …, end - 1}` minus the set. -/
theorem C16_negated {b : Data} {S : Set Nat} (hb : Rep b S) (e : Nat) (he : e + 7 < 2 ^ 31) :
    ∃ d', negated b (BitVec.ofNat 32 e) = some d' ∧ Rep d' {j | j < e ∧ j ∉ S} := by
  obtain ⟨r, e1, h1⟩ := C16_addRange_empty e he
  obtain ⟨d', e2, h2⟩ := C16_difference h1 hb
  refine ⟨d', ?_, ?_⟩
  · unfold negated
    rw [e1]
    exact e2
  · exact h2

/-- `has_inter(a, b)` is "the sets meet". -/
theorem C16_hasInter {a b : Data} {S T : Set Nat} (ha : Rep a S) (hb : Rep b T) :
    ∃ r, hasInter a b = some r ∧ (r = true ↔ (S ∩ T).Nonempty) := by
  have key : (S ∩ T).Nonempty ↔ ∃ k, byteAt a k &&& byteAt b k ≠ 0 := by
    constructor
    · rintro ⟨i, h1, h2⟩
      refine ⟨i / 8, byte_ne_zero.2 ⟨i % 8, Nat.mod_lt _ (by omega), ?_⟩⟩
      rw [BitVec.getLsbD_and, (Mem_iff a i).1 ((ha.mem i).2 h1), (Mem_iff b i).1 ((hb.mem i).2 h2)]; rfl
    · rintro ⟨k, h⟩
      obtain ⟨j, hj, h⟩ := byte_ne_zero.1 h
      rw [BitVec.getLsbD_and, Bool.and_eq_true] at h
      refine ⟨8 * k + j, (ha.mem _).1 ?_, (hb.mem _).1 ?_⟩
      all_goals rw [Mem_iff, show (8 * k + j) / 8 = k by omega, show (8 * k + j) % 8 = j by omega]
      · exact h.1
      · exact h.2
  unfold hasInter
  rcases forBrk_inv (lo := 0) (hi := min a.length b.length) (s := ()) (body := interBody a b)
    (fun k _ => ∀ j < k, byteAt a j &&& byteAt b j = 0) (fun r => r = true ∧ (S ∩ T).Nonempty) (Nat.zero_le _)
    (fun j h => absurd h (by omega)) (by
      intro k s _ hk hP
      unfold interBody
      rw [get_nat (by omega), get_nat (by omega)]
      simp only [Option.bind_eq_bind, Option.bind_some]
      split
      · next h => exact Or.inr ⟨true, rfl, rfl, key.2 ⟨k, h⟩⟩
      · next h =>
        refine Or.inl ⟨s, rfl, ?_⟩
        intro j hj
        by_cases hjk : j = k
        · subst hjk; exact not_not.1 h
        · exact hP j (by omega)) with ⟨s, e, h⟩ | ⟨r, e, h1, h2⟩
  · rw [e]
    refine ⟨false, rfl, ?_⟩
    rw [key]
    constructor
    · intro h; exact absurd h (by simp)
    · rintro ⟨k, hk⟩
      exfalso
      by_cases hkl : k < min a.length b.length
      · exact hk (h k hkl)
      · apply hk
        rcases Nat.le_total a.length b.length with hl | hl
        · rw [byteAt_of_le (d := a) (by omega)]; simp
        · rw [byteAt_of_le (d := b) (by omega)]; simp
  · rw [e]
    exact ⟨r, rfl, by simp [h1, h2]⟩

open Classical in
/-- `has_missing(a, b)` says whether `b` has a member that `a` misses - when it answers.  It faults (out of bounds)
exactly when `a`'s array is longer than `b`'s and nothing is missing, so the full statement (an answer for every pair) is
false: `C16_hasMissing_faults`. -/
theorem C16_hasMissing_partial {a b : Data} {S T : Set Nat} (ha : Rep a S) (hb : Rep b T) :
    (∀ r, hasMissing a b = some r → (r = true ↔ ∃ i ∈ T, i ∉ S)) ∧
    (hasMissing a b = none ↔ b.length < a.length ∧ T ⊆ S) := by
  have key : (∃ i ∈ T, i ∉ S) ↔ ∃ k, ~~~ byteAt a k &&& byteAt b k ≠ 0 := by
    constructor
    · rintro ⟨i, h1, h2⟩
      have hm8 : i % 8 < 8 := Nat.mod_lt _ (by omega)
      refine ⟨i / 8, byte_ne_zero.2 ⟨i % 8, hm8, ?_⟩⟩
      have h1' := (hb.mem i).2 h1
      have h2' : ¬ Mem a i := fun h => h2 ((ha.mem i).1 h)
      rw [Mem_iff] at h1' h2'
      rw [BitVec.getLsbD_and, BitVec.getLsbD_not, h1', Bool.not_eq_true _ |>.mp h2']
      simp [hm8]
    · rintro ⟨k, h⟩
      obtain ⟨j, hj, h⟩ := byte_ne_zero.1 h
      rw [BitVec.getLsbD_and, BitVec.getLsbD_not, Bool.and_eq_true] at h
      refine ⟨8 * k + j, (hb.mem _).1 ?_, fun hc => ?_⟩
      · rw [Mem_iff, show (8 * k + j) / 8 = k by omega, show (8 * k + j) % 8 = j by omega]; exact h.2
      · have := (ha.mem _).2 hc
        rw [Mem_iff, show (8 * k + j) / 8 = k by omega, show (8 * k + j) % 8 = j by omega] at this
        simp [this] at h
  have sub : T ⊆ S ↔ ¬ ∃ i ∈ T, i ∉ S := by
    constructor
    · rintro h ⟨i, h1, h2⟩; exact h2 (h h1)
    · intro h i hi; by_contra hc; exact h ⟨i, hi, hc⟩
  unfold hasMissing
  by_cases hl : a.length < b.length
  · rw [if_pos hl]
    refine ⟨?_, by simp; omega⟩
    rintro r hr
    obtain rfl : true = r := by simpa using hr
    simp only [true_iff]
    rw [key]
    refine ⟨b.length - 1, ?_⟩
    rw [byteAt_of_le (d := a) (by omega)]
    rcases trimmed_iff.1 hb.trimmed with h0 | h0
    · omega
    · obtain ⟨j, hj, h⟩ := byte_ne_zero.1 h0
      exact byte_ne_zero.2 ⟨j, hj, by rw [BitVec.getLsbD_and, BitVec.getLsbD_not, h]; simp [hj]⟩
  · rw [if_neg hl]
    -- the loop up to any bound inside `b`
    have loop : ∀ n, forBrk n a.length () (missingBody a b) =
        if ∃ k, n ≤ k ∧ k < b.length ∧ ~~~ byteAt a k &&& byteAt b k ≠ 0 then some (Sum.inr true)
        else if b.length < a.length ∧ n < a.length then none else some (Sum.inl ()) := by
      intro n
      induction hm : a.length - n generalizing n with
      | zero =>
        unfold forBrk
        rw [if_neg (by omega), if_neg (by rintro ⟨k, h⟩; omega), if_neg (by omega)]
      | succ m ih =>
        unfold forBrk
        rw [if_pos (by omega)]
        unfold missingBody
        rw [get_nat (by omega)]
        by_cases hn : n < b.length
        · rw [get_nat hn]
          simp only [Option.bind_eq_bind, Option.bind_some]
          by_cases hz : ~~~ byteAt a n &&& byteAt b n ≠ 0
          · rw [if_pos hz, if_pos ⟨n, Nat.le_refl _, hn, hz⟩]
          · rw [if_neg hz]
            have := ih (n + 1) (by omega)
            unfold missingBody at this
            simp only [Option.bind_eq_bind] at this
            simp only
            rw [this]
            have hex : (∃ k, n + 1 ≤ k ∧ k < b.length ∧ ~~~ byteAt a k &&& byteAt b k ≠ 0) ↔
                (∃ k, n ≤ k ∧ k < b.length ∧ ~~~ byteAt a k &&& byteAt b k ≠ 0) := by
              constructor
              · rintro ⟨k, h1, h2⟩; exact ⟨k, by omega, h2⟩
              · rintro ⟨k, h1, h2, h3⟩
                by_cases hk : k = n
                · subst hk; exact absurd h3 hz
                · exact ⟨k, by omega, h2, h3⟩
            simp only [hex]
            split
            · rfl
            · split_ifs <;> first | rfl | omega
        · have : get b (n : Int) = none := by
            unfold get
            rw [if_neg (by omega)]
            simp; omega
          rw [this]
          simp only [Option.bind_eq_bind, Option.bind_some, Option.bind_none]
          rw [if_neg (by rintro ⟨k, h1, h2, _⟩; omega), if_pos (by omega)]
    rw [loop 0]
    have hex : (∃ k, 0 ≤ k ∧ k < b.length ∧ ~~~ byteAt a k &&& byteAt b k ≠ 0) ↔ ∃ i ∈ T, i ∉ S := by
      rw [key]
      constructor
      · rintro ⟨k, _, _, h⟩; exact ⟨k, h⟩
      · rintro ⟨k, h⟩
        refine ⟨k, Nat.zero_le _, ?_, h⟩
        by_contra hc
        exact h (by rw [byteAt_of_le (d := b) (by omega)]; simp)
    rw [sub]
    by_cases he : ∃ i ∈ T, i ∉ S
    · rw [if_pos (hex.2 he)]
      simp [he]
    · rw [if_neg (fun h => he (hex.1 h))]
      by_cases hlt : b.length < a.length
      · rw [if_pos ⟨hlt, by omega⟩]
        simp [he, hlt]
      · rw [if_neg (by omega)]
        simp [he, hlt]

/-- When it answers for sure: `a`'s largest member lies in the last byte of `b` or before, e.g. equal sets. -/
theorem C16_hasMissing_self {a : Data} {S : Set Nat} (ha : Rep a S) : hasMissing a a = some false := by
  obtain ⟨h1, h2⟩ := C16_hasMissing_partial ha ha
  cases h : hasMissing a a with
  | none => have := (h2.1 h).1; omega
  | some r =>
    have := h1 r h
    cases r with
    | false => rfl
    | true =>
      obtain ⟨i, a1, a2⟩ := this.1 rfl
      exact absurd a1 a2

/-- Finding: `has_missing` runs off the end of `b` when `a` has a member in a later byte than all of `b`'s. -/
theorem C16_hasMissing_faults : hasMissing [1#8, 1#8] [1#8] = none := by decide +kernel

end Verif.BitSet
