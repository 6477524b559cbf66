import Verif.BitSetAlg
/-!
# BitSet: `each` visits the members in ascending order and `popcount` counts them (C16)
-/
namespace Verif.BitSet

theorem forUp_eq_foldlM {σ : Type _} (lo n : Nat) (s : σ) (body : Nat → σ → Option σ) :
    forUp lo (lo + n) s body = (List.range' lo n).foldlM (fun s i => body i s) s := by
  induction n generalizing lo s with
  | zero => unfold forUp; simp
  | succ n ih =>
    unfold forUp
    rw [if_pos (by omega), List.range'_succ, List.foldlM_cons]
    cases h : body lo s with
    | none => rfl
    | some s' =>
      simp only [Option.bind_eq_bind, Option.bind_some]
      rw [← ih, show lo + (n + 1) = lo + 1 + n by omega]

/-- The members in byte `i`. -/
def byteMembers (i : Nat) (b : BitVec 8) : List Nat := ((List.range 8).filter fun j => b.getLsbD j).map (8 * i + ·)

/-- The members in ascending order. -/
def members (d : Data) : List Nat := (List.range d.length).flatMap fun i => byteMembers i (byteAt d i)

theorem shl3 (i b : Nat) (hb : b < 8) : i <<< 3 ||| b = 8 * i + b := by
  have := Nat.shiftLeft_add_eq_or_of_lt (i := 3) (b := b) (by omega) i
  rw [← this, Nat.shiftLeft_eq]; omega

theorem foldlM_filter {σ : Type} (l : List Nat) (p : Nat → Bool) (g : Nat → σ → Option σ) (s : σ) :
    l.foldlM (fun s i => if p i then g i s else some s) s = (l.filter p).foldlM (fun s i => g i s) s := by
  induction l generalizing s with
  | nil => rfl
  | cons a l ih =>
    rw [List.foldlM_cons, List.filter_cons]
    by_cases h : p a = true
    · rw [if_pos h, if_pos h, List.foldlM_cons]
      congr 1
      funext s'
      exact ih s'
    · rw [if_neg h, if_neg h]
      simp only [Option.bind_eq_bind, Option.bind_some]
      exact ih s

theorem foldlM_congr {σ : Type} (l : List Nat) (f g : σ → Nat → Option σ) (h : ∀ i ∈ l, ∀ s, f s i = g s i) (s : σ) :
    l.foldlM f s = l.foldlM g s := by
  induction l generalizing s with
  | nil => rfl
  | cons a l ih =>
    rw [List.foldlM_cons, List.foldlM_cons, h a (by simp)]
    congr 1
    funext s'
    exact ih (fun i hi => h i (by simp [hi])) s'

theorem eachBody_eq {σ : Type} (d : Data) (visit : Nat → σ → Option σ) (i : Nat) (hi : i < d.length) (s : σ) :
    eachBody d visit i s = (byteMembers i (byteAt d i)).foldlM (fun s j => visit j s) s := by
  unfold eachBody
  rw [get_nat hi]
  simp only [Option.bind_eq_bind, Option.bind_some]
  unfold byteMembers
  have key : forUp 0 8 s (visitBody visit i (byteAt d i)) =
      (((List.range 8).filter fun j => (byteAt d i).getLsbD j).map (8 * i + ·)).foldlM (fun s j => visit j s) s := by
    have h := forUp_eq_foldlM 0 8 s (visitBody visit i (byteAt d i))
    rw [Nat.zero_add] at h
    rw [h, List.foldlM_map, ← foldlM_filter, ← List.range_eq_range']
    apply foldlM_congr
    intro b hb s
    have hb' : b < 8 := by simpa using hb
    unfold visitBody
    simp only [and_mask_ne _ _ hb']
    rw [shl3 i b hb']
  split
  · exact key
  · next h =>
    have : ((List.range 8).filter fun j => (byteAt d i).getLsbD j) = [] := by
      rw [List.filter_eq_nil_iff]
      intro j _
      rw [not_not.1 h]; simp
    rw [this]
    rfl

theorem foldlM_flatMap' {σ : Type} (l : List Nat) (f : Nat → List Nat) (g : σ → Nat → Option σ) (s : σ) :
    (l.flatMap f).foldlM g s = l.foldlM (fun s i => (f i).foldlM g s) s := by
  induction l generalizing s with
  | nil => rfl
  | cons a l ih =>
    rw [List.flatMap_cons, List.foldlM_append, List.foldlM_cons]
    congr 1
    funext s'
    exact ih s'

theorem each_eq {σ : Type} (d : Data) (visit : Nat → σ → Option σ) (s : σ) :
    each d visit s = (members d).foldlM (fun s j => visit j s) s := by
  unfold each members
  have h := forUp_eq_foldlM 0 d.length s (eachBody d visit)
  rw [Nat.zero_add] at h
  rw [h, foldlM_flatMap', ← List.range_eq_range']
  apply foldlM_congr
  intro i hi s
  exact eachBody_eq d visit i (by simpa using hi) s

theorem mem_members (d : Data) (i : Nat) : i ∈ members d ↔ Mem d i := by
  unfold members byteMembers
  simp only [List.mem_flatMap, List.mem_range, List.mem_map, List.mem_filter]
  rw [Mem_iff]
  constructor
  · rintro ⟨k, hk, j, ⟨hj, h⟩, rfl⟩
    rw [show (8 * k + j) / 8 = k by omega, show (8 * k + j) % 8 = j by omega]
    exact h
  · intro h
    refine ⟨i / 8, ?_, i % 8, ⟨Nat.mod_lt _ (by omega), h⟩, by omega⟩
    by_contra hc
    rw [byteAt_of_le (by omega)] at h
    simp at h

theorem members_sorted (d : Data) : (members d).Pairwise (· < ·) := by
  unfold members
  rw [List.pairwise_flatMap]
  constructor
  · intro i _
    unfold byteMembers
    rw [List.pairwise_map]
    apply List.Pairwise.imp (R := (· < ·))
    · intro a b h; omega
    · exact List.Pairwise.filter _ List.pairwise_lt_range
  · apply List.Pairwise.imp (R := (· < ·)) _ List.pairwise_lt_range
    intro a b hab x hx y hy
    unfold byteMembers at hx hy
    simp only [List.mem_map, List.mem_filter, List.mem_range] at hx hy
    obtain ⟨j, ⟨hj, _⟩, rfl⟩ := hx
    obtain ⟨k, ⟨hk, _⟩, rfl⟩ := hy
    omega

/-- The one bits of a byte. -/
def cnt8 (b : BitVec 8) : Nat := (List.range 8).countP fun j => b.getLsbD j

theorem flatMap_len (l : List Nat) (f : Nat → List Nat) : (l.flatMap f).length = (l.map fun i => (f i).length).sum := by
  rw [List.length_flatMap]

theorem members_length (d : Data) : (members d).length = (d.map cnt8).sum := by
  unfold members
  rw [List.length_flatMap]
  congr 1
  apply List.ext_getElem
  · simp
  · intro k h1 h2
    simp only [List.length_map, List.length_range] at h1 h2
    simp only [List.getElem_map, List.getElem_range]
    unfold byteMembers cnt8 byteAt
    rw [List.length_map, List.countP_eq_length_filter]
    simp [h1]

theorem countP_range_add (p : Nat → Bool) (a b : Nat) :
    (List.range (a + b)).countP p = (List.range a).countP p + (List.range b).countP (fun i => p (a + i)) := by
  rw [List.range_add, List.countP_append, List.countP_map]
  rfl

theorem pc_step (acc : BitVec 64) (b : BitVec 8) (k : Nat) (hk : k ≤ 7) (h : ∀ i, 8 * k ≤ i → acc.getLsbD i = false) :
    popcount64 (acc <<< 8 ||| b.setWidth 64) = popcount64 acc + cnt8 b ∧
      ∀ i, 8 * (k + 1) ≤ i → (acc <<< 8 ||| b.setWidth 64).getLsbD i = false := by
  have hbit : ∀ i, i < 64 → (acc <<< 8 ||| b.setWidth 64).getLsbD i = if i < 8 then b.getLsbD i else acc.getLsbD (i - 8) := by
    intro i hi
    rw [BitVec.getLsbD_or, BitVec.getLsbD_shiftLeft, BitVec.getLsbD_setWidth]
    by_cases h8 : i < 8
    · simp [hi, h8]
    · simp [hi, h8, BitVec.getLsbD_of_ge b i (by omega)]
  constructor
  · unfold popcount64 cnt8
    have e1 : (List.range 64).countP (fun i => (acc <<< 8 ||| b.setWidth 64).getLsbD i) =
        (List.range 8).countP (fun i => (acc <<< 8 ||| b.setWidth 64).getLsbD i) +
        (List.range 56).countP (fun i => (acc <<< 8 ||| b.setWidth 64).getLsbD (8 + i)) := countP_range_add _ 8 56
    have e2 : (List.range 64).countP (fun i => acc.getLsbD i) =
        (List.range 56).countP (fun i => acc.getLsbD i) + (List.range 8).countP (fun i => acc.getLsbD (56 + i)) :=
      countP_range_add _ 56 8
    have e3 : (List.range 8).countP (fun i => acc.getLsbD (56 + i)) = 0 := by
      rw [List.countP_eq_zero]
      intro i _
      rw [h (56 + i) (by omega)]; simp
    have e4 : (List.range 8).countP (fun i => (acc <<< 8 ||| b.setWidth 64).getLsbD i) =
        (List.range 8).countP (fun i => b.getLsbD i) := by
      apply List.countP_congr
      intro i hi
      have : i < 8 := by simpa using hi
      rw [hbit i (by omega), if_pos this]
    have e5 : (List.range 56).countP (fun i => (acc <<< 8 ||| b.setWidth 64).getLsbD (8 + i)) =
        (List.range 56).countP (fun i => acc.getLsbD i) := by
      apply List.countP_congr
      intro i hi
      have : i < 56 := by simpa using hi
      rw [hbit (8 + i) (by omega), if_neg (by omega), Nat.add_sub_cancel_left]
    rw [e1, e2, e3, e4, e5]
    omega
  · intro i hi
    by_cases h64 : i < 64
    · rw [hbit i h64, if_neg (by omega)]
      exact h _ (by omega)
    · exact BitVec.getLsbD_of_ge _ _ (by omega)

theorem pc_zero : popcount64 0#64 = 0 := by
  unfold popcount64
  rw [List.countP_eq_zero]
  intro i _
  simp

theorem pc_foldr (l : Data) (hl : l.length ≤ 8) :
    popcount64 (l.foldr (fun b acc => acc <<< 8 ||| b.setWidth 64) 0) = (l.map cnt8).sum ∧
      ∀ i, 8 * l.length ≤ i → (l.foldr (fun b (acc : BitVec 64) => acc <<< 8 ||| b.setWidth 64) (0 : BitVec 64)).getLsbD i = false := by
  induction l with
  | nil => exact ⟨pc_zero, fun i _ => by simp⟩
  | cons b l ih =>
    simp only [List.length_cons] at hl
    obtain ⟨h1, h2⟩ := ih (by omega)
    obtain ⟨h3, h4⟩ := pc_step _ b l.length (by omega) h2
    refine ⟨?_, ?_⟩
    · rw [List.foldr_cons, h3, h1]; simp; omega
    · intro i hi
      rw [List.foldr_cons]
      exact h4 i (by simpa using hi)

theorem popcount_eq (d : Data) : popcount d = some (members d).length := by
  rw [members_length]
  unfold popcount
  simp only
  obtain ⟨sum, e1, h1⟩ := forUp_inv (lo := 0) (hi := d.length / 8) (s := 0) (body := sumBody d)
    (fun k s => s = ((d.take (8 * k)).map cnt8).sum) (Nat.zero_le _) (by simp) (by
      intro k s _ hk hs
      refine ⟨_, rfl, ?_⟩
      unfold wordAt
      rw [(pc_foldr _ (by simp)).1, hs, ← List.sum_append, ← List.map_append]
      congr 2
      rw [show 8 * (k + 1) = 8 * k + 8 by omega, List.take_add])
  obtain ⟨tail, e2, h2, _⟩ := forUp_inv (lo := d.length / 8 * 8) (hi := d.length) (s := (0 : BitVec 64)) (body := tailBody d)
    (fun k t => popcount64 t = (((d.drop (d.length / 8 * 8)).take (k - d.length / 8 * 8)).map cnt8).sum ∧
      ∀ i, 8 * (k - d.length / 8 * 8) ≤ i → t.getLsbD i = false) (by omega) ⟨by rw [Nat.sub_self, List.take_zero]; exact pc_zero, fun i _ => by simp⟩ (by
      rintro k t hk1 hk2 ⟨ht1, ht2⟩
      unfold tailBody
      rw [get_nat hk2]
      refine ⟨_, rfl, ?_⟩
      obtain ⟨h3, h4⟩ := pc_step t (byteAt d k) (k - d.length / 8 * 8) (by omega) ht2
      refine ⟨?_, ?_⟩
      · rw [h3, ht1, show k + 1 - d.length / 8 * 8 = k - d.length / 8 * 8 + 1 by omega, List.take_add, List.map_append,
          List.sum_append]
        congr 1
        rw [List.drop_drop, show d.length / 8 * 8 + (k - d.length / 8 * 8) = k by omega]
        have : (d.drop k).take 1 = [byteAt d k] := by
          unfold byteAt
          rw [List.getElem?_eq_getElem hk2, List.drop_eq_getElem_cons hk2]; rfl
        rw [this]; simp
      · intro i hi; exact h4 i (by omega))
  simp only [Option.bind_eq_bind, e1, Option.bind_some, e2]
  rw [h1, h2, ← List.sum_append, ← List.map_append, List.take_of_length_le (l := d.drop _) (by simp),
    Nat.mul_comm, List.take_append_drop]

/-- **C16.** `each` calls its visitor on the members in ascending order, each exactly once (and stops at the first visit
that faults); `popcount` is the number of members. -/
theorem C16_each_popcount {d : Data} {S : Set Nat} (h : Rep d S) :
    ∃ l : List Nat, l.Pairwise (· < ·) ∧ (∀ i, i ∈ l ↔ i ∈ S) ∧
      (∀ (σ : Type) (visit : Nat → σ → Option σ) (s : σ), each d visit s = l.foldlM (fun s i => visit i s) s) ∧
      popcount d = some l.length ∧ popcount d = some S.ncard := by
  refine ⟨members d, members_sorted d, fun i => (mem_members d i).trans (h.mem i), fun σ visit s => each_eq d visit s,
    popcount_eq d, ?_⟩
  rw [popcount_eq d]
  have hnd : (members d).Nodup := (members_sorted d).imp (fun h => Nat.ne_of_lt h)
  have hS : S = ((members d).toFinset : Set Nat) := by
    ext i
    rw [← h.mem i, ← mem_members]
    simp
  rw [hS, Set.ncard_coe_finset, List.toFinset_card_of_nodup hnd]

example : popcount [0xff#8, 0#8, 3#8, 0#8, 0#8, 0#8, 0#8, 0x80#8, 1#8, 0x11#8] = some 14 := by decide +kernel
example : each [5#8, 0#8, 2#8] (fun i l => some (l ++ [i])) [] = some [0, 2, 17] := by decide +kernel

end Verif.BitSet
