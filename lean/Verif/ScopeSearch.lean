import Verif.ScopeScan
/-! # Scopes: one call of `search` -/
namespace Verif.Scope
open Verif

/-! ### the packed bits -/

theorem bit62 (i : Nat) : (0x4000000000000000#64).getLsbD i = decide (i = 62) := by
  by_cases h : i < 64
  · revert i; decide
  · rw [BitVec.getLsbD_of_ge _ _ (by omega)]; simp; omega
theorem bit63 (i : Nat) : (0x8000000000000000#64).getLsbD i = decide (i = 63) := by
  by_cases h : i < 64
  · revert i; decide
  · rw [BitVec.getLsbD_of_ge _ _ (by omega)]; simp; omega
theorem bits62 (i : Nat) : (0x3fffffffffffffff#64).getLsbD i = decide (i < 62) := by
  by_cases h : i < 64
  · revert i; decide
  · rw [BitVec.getLsbD_of_ge _ _ (by omega)]; simp; omega

theorem and_one_bit (x m : BitVec 64) (n : Nat) (hm : ∀ i, m.getLsbD i = decide (i = n)) : (x &&& m != 0#64) = x.getLsbD n := by
  rw [Bool.eq_iff_iff, bne_iff_ne]
  constructor
  · intro h
    by_cases h1 : x.getLsbD n = true
    · exact h1
    · exfalso
      apply h
      apply BitVec.eq_of_getLsbD_eq
      intro i _
      rw [BitVec.getLsbD_and, hm]
      by_cases h2 : i = n
      · subst h2; simp only [Bool.not_eq_true] at h1; rw [h1]; simp
      · simp [h2]
  · intro h e
    have : (x &&& m).getLsbD n = (0#64).getLsbD n := congrArg (fun y => y.getLsbD n) e
    rw [BitVec.getLsbD_and, h, hm, BitVec.getLsbD_zero] at this
    simp at this

theorem shadows_bit (x : Item) : shadows x = x.packed.getLsbD 63 := and_one_bit _ _ _ bit63
theorem canSkip_bit (x : Item) : canSkipRest x = x.packed.getLsbD 62 := and_one_bit _ _ _ bit62

/-- what a lookup looks at -/
def skel (x : Item) : Str × BitVec 64 × Bool := (x.id, target x, shadows x)

/-- flagging an item changes nothing else -/
theorem skel_set (x : Item) : skel (canSkipRest_set x) = skel x := by
  unfold skel
  refine Prod.ext rfl (Prod.ext ?_ ?_)
  · show (x.packed ||| _) &&& _ = x.packed &&& _
    apply BitVec.eq_of_getLsbD_eq
    intro i _
    simp only [BitVec.getLsbD_and, BitVec.getLsbD_or, bit62, bits62]
    by_cases h : i = 62
    · subst h; simp
    · simp [h]
  · show shadows _ = shadows x
    rw [shadows_bit, shadows_bit]
    show (x.packed ||| _).getLsbD 63 = _
    rw [BitVec.getLsbD_or, bit62]; simp

theorem skel_clear (x : Item) : skel (canSkipRest_clear x) = skel x := by
  unfold skel
  refine Prod.ext rfl (Prod.ext ?_ ?_)
  · show (x.packed &&& ~~~_) &&& _ = x.packed &&& _
    apply BitVec.eq_of_getLsbD_eq
    intro i hi
    simp only [BitVec.getLsbD_and, BitVec.getLsbD_not, bit62, bits62, hi]
    by_cases h : i = 62
    · subst h; simp
    · simp [h]
  · show shadows _ = shadows x
    rw [shadows_bit, shadows_bit]
    show (x.packed &&& ~~~_).getLsbD 63 = _
    rw [BitVec.getLsbD_and, BitVec.getLsbD_not, bit62]; simp

theorem clear_flag (x : Item) : canSkipRest (canSkipRest_clear x) = false := by
  rw [canSkip_bit]
  show (x.packed &&& ~~~_).getLsbD 62 = _
  rw [BitVec.getLsbD_and, BitVec.getLsbD_not, bit62]; simp

/-- a new item carries its name, target and shadowing, and no flag -/
theorem mkItem_skel (id : Str) (t : BitVec 64) (sh : Bool) :
    skel (mkItem id t sh) = (id, t &&& 0x3fffffffffffffff#64, sh) ∧ canSkipRest (mkItem id t sh) = false := by
  have e63 : (t &&& 0x3fffffffffffffff#64).getLsbD 63 = false := by rw [BitVec.getLsbD_and, bits62]; simp
  have e62 : (t &&& 0x3fffffffffffffff#64).getLsbD 62 = false := by rw [BitVec.getLsbD_and, bits62]; simp
  refine ⟨?_, ?_⟩
  · unfold skel
    refine Prod.ext rfl (Prod.ext ?_ ?_)
    · show (t &&& _ ||| _) &&& _ = t &&& _
      apply BitVec.eq_of_getLsbD_eq
      intro i hi
      simp only [BitVec.getLsbD_and, BitVec.getLsbD_or, bits62]
      by_cases h : i < 62
      · have : (if sh then 0x8000000000000000#64 else 0#64).getLsbD i = false := by
          split
          · rw [bit63]; simp; omega
          · exact BitVec.getLsbD_zero
        rw [this]; simp [h]
      · simp [h]
    · show shadows _ = sh
      rw [shadows_bit]
      show (t &&& _ ||| _).getLsbD 63 = sh
      rw [BitVec.getLsbD_or, e63]
      cases sh
      · decide
      · decide
  · rw [canSkip_bit]
    show (t &&& _ ||| _).getLsbD 62 = false
    rw [BitVec.getLsbD_or, e62]
    cases sh
    · decide
    · decide

/-! ### what is left to find -/

theorem ans_congr {a b : List Item} (h : a.map skel = b.map skel) (skips : List ScopeSkip) (id : Str) :
    ∀ p, ans a skips id p = ans b skips id p := by
  intro p
  induction p with
  | zero => rfl
  | succ k ih =>
    rw [ans, ans, ih]
    have hk : (a[k]?).map skel = (b[k]?).map skel := by rw [← List.getElem?_map, ← List.getElem?_map, h]
    cases ha : a[k]? with
    | none =>
      rw [ha] at hk
      cases hb : b[k]? with
      | none => rfl
      | some y => rw [hb] at hk; cases hk
    | some x =>
      rw [ha] at hk
      cases hb : b[k]? with
      | none => rw [hb] at hk; cases hk
      | some y =>
        rw [hb] at hk
        simp only [Option.map_some, Option.some.injEq] at hk
        have h1 : x.id = y.id := congrArg (·.1) hk
        have h2 : target x = target y := congrArg (·.2.1) hk
        have h3 : shadows x = shadows y := congrArg (·.2.2) hk
        simp only [h1, h2, h3]

/-- the fields of that name among the first `k`, last first -/
def fans (field : List Item) (id : Str) : Nat → List (BitVec 64 × Bool)
  | 0 => []
  | k + 1 =>
    match field[k]? with
    | none => fans field id k
    | some x => if x.id = id then (target x, false) :: fans field id k else fans field id k

/-- the first `k` extra items, last first -/
def eans (extra : List (BitVec 64)) (k : Nat) : List (BitVec 64 × Bool) := ((extra.take k).map fun t => (t, false)).reverse

theorem eans_succ (extra : List (BitVec 64)) (k : Nat) (h : k < extra.length) : eans extra (k + 1) = (extra[k], false) :: eans extra k := by
  unfold eans
  rw [List.take_succ_eq_append_getElem h, List.map_append, List.reverse_append]
  rfl

/-- the iterator stands where `r` is still to be found -/
def Rem (items : List Item) (skips : List ScopeSkip) (id : Str) (field : List Item) (extra : List (BitVec 64)) (it : Int)
    (r : List (BitVec 64 × Bool)) : Prop :=
  (it = 0 ∧ r = ans items skips id items.length ++ (fans field id field.length ++ eans extra extra.length)) ∨
  (∃ k : Nat, it = 0x10000000 + (k : Int) ∧
    (k = 0 ∨ ∃ x, items[k]? = some x ∧ x.id = id ∧ visible skips k = true) ∧
    r = ans items skips id k ++ (fans field id field.length ++ eans extra extra.length)) ∨
  (∃ k : Nat, k ≤ field.length ∧ it = 0x60000000 + (k : Int) ∧ r = fans field id k ++ eans extra extra.length) ∨
  (∃ k : Nat, k ≤ extra.length ∧ it = 0x70000000 + (k : Int) ∧ r = eans extra k)

theorem Rem.congr {a b : List Item} (h : a.map skel = b.map skel) {skips : List ScopeSkip} {id : Str} {field : List Item}
    {extra : List (BitVec 64)} {it : Int} {r : List (BitVec 64 × Bool)} (hr : Rem a skips id field extra it r) (h0 : it ≠ 0) :
    Rem b skips id field extra it r := by
  rcases hr with ⟨e, _⟩ | ⟨k, e, hk, hr⟩ | h3 | h4
  · exact absurd e h0
  · refine Or.inr (Or.inl ⟨k, e, ?_, by rw [hr, ans_congr h]⟩)
    rcases hk with hk | ⟨x, hx, hid, hv⟩
    · exact Or.inl hk
    · refine Or.inr ?_
      have hk : (a[k]?).map skel = (b[k]?).map skel := by rw [← List.getElem?_map, ← List.getElem?_map, h]
      rw [hx] at hk
      cases hb : b[k]? with
      | none => rw [hb] at hk; cases hk
      | some y =>
        rw [hb] at hk
        simp only [Option.map_some, Option.some.injEq] at hk
        exact ⟨y, rfl, (congrArg (·.1) hk).symm.trans hid, hv⟩
  · exact Or.inr (Or.inr (Or.inl h3))
  · exact Or.inr (Or.inr (Or.inr h4))

/-- more items on top do not matter to a lookup under way -/
theorem Rem.append {a : List Item} (b : List Item) {skips : List ScopeSkip} {id : Str} {field : List Item}
    {extra : List (BitVec 64)} {it : Int} {r : List (BitVec 64 × Bool)} (hr : Rem a skips id field extra it r) (h0 : it ≠ 0) :
    Rem (a ++ b) skips id field extra it r := by
  have hans : ∀ k ≤ a.length, ans (a ++ b) skips id k = ans a skips id k := by
    intro k
    induction k with
    | zero => intro _; rfl
    | succ k ih =>
      intro hk
      rw [ans, ans, ih (by omega), List.getElem?_append_left (by omega)]
  rcases hr with ⟨e, _⟩ | ⟨k, e, hk, hr⟩ | h3 | h4
  · exact absurd e h0
  · rcases hk with hk | ⟨x, hx, hid, hv⟩
    · exact Or.inr (Or.inl ⟨k, e, Or.inl hk, by rw [hr, hk]; rfl⟩)
    · have hlt : k < a.length := by
        rcases Nat.lt_or_ge k a.length with h | h
        · exact h
        · rw [List.getElem?_eq_none h] at hx; cases hx
      refine Or.inr (Or.inl ⟨k, e, Or.inr ⟨x, by rw [List.getElem?_append_left hlt]; exact hx, hid, hv⟩, ?_⟩)
      rw [hr, hans k (by omega)]
  · exact Or.inr (Or.inr (Or.inl h3))
  · exact Or.inr (Or.inr (Or.inr h4))

/-- how a call answers -/
def Answers (items : List Item) (skips : List ScopeSkip) (id : Str) (field : List Item) (extra : List (BitVec 64))
    (r : List (BitVec 64 × Bool)) (c : Call) : Prop :=
  match c.target with
  | none => r = []
  | some t => c.it ≠ 0 ∧ ∃ r', r = (t, c.shadows) :: r' ∧ Rem items skips id field extra c.it r'

theorem extra_spec (items its : List Item) (skips : List ScopeSkip) (id : Str) (field : List Item) (extra : List (BitVec 64)) (he : extra.length ≤ maxItems)
    (it : Int) (k : Nat) (hk : k ≤ extra.length) (h : (it < 0x70000000 ∧ k = extra.length) ∨ it = 0x70000000 + (k : Int)) :
    ∃ c, searchExtra its it extra = some c ∧ c.items = its ∧ Answers items skips id field extra (eans extra k) c := by
  have e1 : (if it < 0x70000000 then 0x70000000 + (extra.length : Int) else it) = 0x70000000 + (k : Int) := by
    rcases h with ⟨h1, h2⟩ | h
    · rw [if_pos h1, h2]
    · rw [if_neg (by omega), h]
  unfold searchExtra
  rw [e1]
  unfold maxItems at he
  cases k with
  | zero =>
    simp only
    rw [if_neg (by omega)]
    exact ⟨_, rfl, rfl, by unfold Answers; simp [eans]⟩
  | succ k =>
    simp only
    rw [if_pos (by omega)]
    have : (0x70000000 + ((k + 1 : Nat) : Int)) - 0x70000000 - 1 = (k : Int) := by omega
    rw [this, get_nat, List.getElem?_eq_getElem (by omega)]
    refine ⟨_, rfl, rfl, ?_⟩
    show _ ∧ ∃ r', _
    refine ⟨by dsimp only; omega, eans extra k, eans_succ extra k (by omega), Or.inr (Or.inr (Or.inr ⟨k, by omega, ?_, rfl⟩))⟩
    show _ - 1 = _
    omega

theorem scanField_spec (field : List Item) (id : Str) : ∀ k ≤ field.length,
    (scanField field id k = none ∧ fans field id k = []) ∨
    ∃ j x, scanField field id k = some (j, x) ∧ j < k ∧ fans field id k = (target x, false) :: fans field id j := by
  intro k
  induction k with
  | zero => intro _; exact Or.inl ⟨rfl, rfl⟩
  | succ k ih =>
    intro hk
    rw [scanField, fans, List.getElem?_eq_getElem (by omega)]
    simp only
    by_cases h : field[k].id = id
    · rw [if_pos h, if_pos h]
      exact Or.inr ⟨k, field[k], rfl, by omega, rfl⟩
    · rw [if_neg h, if_neg h]
      rcases ih (by omega) with h1 | ⟨j, x, h1, h2, h3⟩
      · exact Or.inl h1
      · exact Or.inr ⟨j, x, h1, by omega, h3⟩

theorem field_spec (items its : List Item) (skips : List ScopeSkip) (id : Str) (field : List Item) (extra : List (BitVec 64))
    (hf : field.length ≤ maxItems) (he : extra.length ≤ maxItems)
    (it : Int) (k : Nat) (hk : k ≤ field.length) (h : (it < 0x60000000 ∧ k = field.length) ∨ it = 0x60000000 + (k : Int)) :
    ∃ c, searchField its id it extra field = some c ∧ c.items = its ∧
      Answers items skips id field extra (fans field id k ++ eans extra extra.length) c := by
  have e1 : (if it < 0x60000000 then 0x60000000 + (field.length : Int) else it) = 0x60000000 + (k : Int) := by
    rcases h with ⟨h1, h2⟩ | h
    · rw [if_pos h1, h2]
    · rw [if_neg (by omega), h]
  unfold searchField
  rw [e1]
  have hf' := hf
  unfold maxItems at hf'
  by_cases hk0 : k = 0
  · subst hk0
    simp only
    rw [if_neg (by omega)]
    exact extra_spec items its skips id field extra he _ extra.length (Nat.le_refl _) (Or.inl ⟨by omega, rfl⟩)
  · simp only
    rw [if_pos (by omega), if_neg (by omega)]
    have : (0x60000000 + (k : Int) - 0x60000000).toNat = k := by omega
    rw [this]
    rcases scanField_spec field id k hk with ⟨h1, h2⟩ | ⟨j, x, h1, h2, h3⟩
    · rw [h1, h2, List.nil_append]
      exact extra_spec items its skips id field extra he _ extra.length (Nat.le_refl _) (Or.inl ⟨by omega, rfl⟩)
    · rw [h1, h3]
      refine ⟨_, rfl, rfl, ?_⟩
      show _ ∧ ∃ r', _
      exact ⟨by dsimp only; omega, fans field id j ++ eans extra extra.length, rfl, Or.inr (Or.inr (Or.inl ⟨j, by omega, rfl, rfl⟩))⟩

/-! ### flags -/

/-- wherever an item is visible, the same items are visible below it: those of its `view` -/
def Coh (views : Nat → List ScopeSkip) (skips : List ScopeSkip) (n : Nat) : Prop :=
  ∀ j < n, visible skips j = true → ∀ i < j, visible skips i = visible (views j) i

/-- a flagged item has no namesake below it in its view -/
def Sound (views : Nat → List ScopeSkip) (items : List Item) : Prop :=
  ∀ j x, items[j]? = some x → canSkipRest x = true → ∀ i < j, ∀ y, items[i]? = some y → visible (views j) i = true → y.id ≠ x.id

theorem ans_nil {items : List Item} {skips : List ScopeSkip} {id : Str} : ∀ {p : Nat}, ans items skips id p = [] ↔
    ∀ i < p, ∀ y, items[i]? = some y → visible skips i = true → y.id ≠ id := by
  intro p
  induction p with
  | zero => exact ⟨fun _ i h => by omega, fun _ => rfl⟩
  | succ k ih =>
    rw [ans]
    constructor
    · intro h i hi y hy hv
      cases hk : items[k]? with
      | none =>
        rw [hk] at h
        by_cases hik : i = k
        · rw [hik, hk] at hy; cases hy
        · exact ih.1 h i (by omega) y hy hv
      | some x =>
        rw [hk] at h
        simp only at h
        by_cases hc : visible skips k = true ∧ x.id = id
        · rw [if_pos hc] at h; cases h
        · rw [if_neg hc] at h
          by_cases hik : i = k
          · rw [hik] at hv hy
            rw [hk] at hy; cases hy
            exact fun e => hc ⟨hv, e⟩
          · exact ih.1 h i (by omega) y hy hv
    · intro h
      have h1 := ih.2 fun i hi => h i (by omega)
      split
      · exact h1
      · rename_i x hx
        rw [if_neg]
        · exact h1
        · rintro ⟨hv, e⟩
          exact h k (by omega) x hx hv e

theorem modify_skel (items : List Item) (k : Nat) : (items.modify k canSkipRest_set).map skel = items.map skel := by
  apply List.ext_getElem?
  intro i
  rw [List.getElem?_map, List.getElem?_map, List.getElem?_modify]
  cases items[i]? with
  | none => rfl
  | some x =>
    show some (skel (if k = i then canSkipRest_set x else x)) = some (skel x)
    split
    · rw [skel_set]
    · rfl

theorem skel_get {a b : List Item} (h : a.map skel = b.map skel) {i : Nat} {y : Item} (hy : a[i]? = some y) :
    ∃ z, b[i]? = some z ∧ skel z = skel y := by
  have hk : (a[i]?).map skel = (b[i]?).map skel := by rw [← List.getElem?_map, ← List.getElem?_map, h]
  rw [hy] at hk
  cases hb : b[i]? with
  | none => rw [hb] at hk; cases hk
  | some z => rw [hb] at hk; exact ⟨z, rfl, by simpa using hk.symm⟩

/-- **one call** of `search` returns the next answer, or nothing if there is none; it may flag an item, rightly -/
theorem search_spec {items : List Item} {skips : List ScopeSkip} {n : Nat} {views : Nat → List ScopeSkip}
    (hw : WF skips n) (hn : n ≤ items.length) (hi : items.length ≤ maxItems) {field : List Item} {extra : List (BitVec 64)}
    (hf : field.length ≤ maxItems) (he : extra.length ≤ maxItems) (hc : Coh views skips items.length) (hs : Sound views items)
    {id : Str} {it : Int} {r : List (BitVec 64 × Bool)} (hr : Rem items skips id field extra it r) :
    ∃ c, search (items.length + 1) items id it skips extra field = some c ∧ c.items.map skel = items.map skel ∧
      Sound views c.items ∧ Answers items skips id field extra r c := by
  have hi' := hi
  have hf' := hf
  have he' := he
  unfold maxItems at hi' hf' he'
  have main : ∀ k : Nat, k ≤ items.length → 0 < k → (k = items.length ∨ ∃ x, items[k]? = some x ∧ x.id = id ∧ visible skips k = true) →
      ∃ c, searchItems (items.length + 1) items id (k : Int) skips extra field = some c ∧
        c.items.map skel = items.map skel ∧ Sound views c.items ∧
        Answers items skips id field extra (ans items skips id k ++ (fans field id field.length ++ eans extra extra.length)) c := by
    intro k hk hk0 hx
    unfold searchItems
    obtain ⟨b1, b2, b3, b4, b5, b6⟩ := next_from (hw.mono hn) ((k : Int) - 1) (-1) (by omega) (Or.inl (by omega))
    generalize nextSkip skips.reverse ((k : Int) - 1) (-1) = s at *
    simp only
    rw [if_neg (by omega)]
    have hr1 : s.1 + 1 = ((s.1 + 1).toNat : Int) := by omega
    rw [hr1] at b4 ⊢
    have hskip : ans items skips id k = ans items skips id (s.1 + 1).toNat :=
      ans_skip items skips id _ k (by omega) fun i a b => b5 i (by omega) (by omega)
    rw [hskip]
    rcases scan_spec hw hn id (items.length + 1) (s.1 + 1).toNat s.2 (by omega) (by omega) b4 with ⟨e, h2⟩ | ⟨j, item, e, h3, h4, h5, h6, h7⟩
    · rw [e]
      simp only
      rw [h2, List.nil_append]
      obtain ⟨c, c1, c2, c3⟩ := field_spec items
        (if 0 ≤ (k : Int) ∧ (k : Int) < items.length then items.modify (k : Int).toNat canSkipRest_set else items)
        skips id field extra hf he (-1) field.length (Nat.le_refl _) (Or.inl ⟨by omega, rfl⟩)
      refine ⟨c, c1, ?_, ?_, c3⟩
      · rw [c2]
        split
        · exact modify_skel _ _
        · rfl
      · rw [c2]
        split
        · rename_i hkl
          have hkl' : k < items.length := by omega
          rcases hx with hx | ⟨x, hx, hid, hv⟩
          · omega
          · have hno := ans_nil.1 (hskip.trans h2)
            intro j y hy hcs i hij z hz hvi
            obtain ⟨y', hy', ey⟩ := skel_get (modify_skel items _) hy
            obtain ⟨z', hz', ez⟩ := skel_get (modify_skel items _) hz
            have idz : z'.id = z.id := congrArg (·.1) ez
            have idy : y'.id = y.id := congrArg (·.1) ey
            rw [← idz, ← idy]
            by_cases hjk : j = k
            · subst hjk
              rw [hx] at hy'
              cases hy'
              rw [hid]
              refine hno i hij z' hz' ?_
              rw [hc j hkl' hv i hij]
              exact hvi
            · have : items[j]? = some y := by
                rw [List.getElem?_modify] at hy
                have hne : ¬ ((k : Int).toNat = j) := by omega
                simp only [hne, if_false] at hy
                simpa using hy
              rw [this] at hy'
              cases hy'
              exact hs j y this hcs i hij z' hz' hvi
        · exact hs
    · rw [e, h7]
      refine ⟨_, rfl, rfl, hs, ?_⟩
      show _ ∧ ∃ r', _
      refine ⟨by dsimp only; split <;> omega, ans items skips id j ++ (fans field id field.length ++ eans extra extra.length), rfl, Or.inr (Or.inl ?_)⟩
      have hjl : j < items.length := by omega
      by_cases hcs : canSkipRest item = true
      · refine ⟨0, ?_, Or.inl rfl, ?_⟩
        · show (if canSkipRest item = true then (0 : Int) else j) + 0x10000000 = _
          rw [if_pos hcs]; rfl
        · have : ans items skips id j = [] := by
            rw [ans_nil]
            intro i hij y hy hv
            rw [← h5]
            refine hs j item h4 hcs i hij y hy ?_
            rw [← hc j hjl h6 i hij]
            exact hv
          rw [this]; rfl
      · refine ⟨j, ?_, Or.inr ⟨item, h4, h5, h6⟩, rfl⟩
        show (if canSkipRest item = true then (0 : Int) else j) + 0x10000000 = _
        rw [if_neg hcs]; omega
  unfold search searchFrom
  rcases hr with ⟨e, hr⟩ | ⟨k, e, hk, hr⟩ | ⟨k, hk, e, hr⟩ | ⟨k, hk, e, hr⟩
  · have e1 : (if it < 0x10000000 then 0x10000000 + (items.length : Int) else it) = 0x10000000 + (items.length : Int) := if_pos (by omega)
    rw [e1]
    by_cases h0 : items.length = 0
    · rw [if_neg (by omega), hr]
      obtain ⟨c, c1, c2, c3⟩ := field_spec items items skips id field extra hf he (0x10000000 + (items.length : Int)) field.length (Nat.le_refl _) (Or.inl ⟨by omega, rfl⟩)
      refine ⟨c, c1, by rw [c2], by rw [c2]; exact hs, ?_⟩
      have : ans items skips id items.length = [] := by rw [h0]; rfl
      rw [this, List.nil_append]
      exact c3
    · rw [if_pos (by omega), hr]
      have e2 : (0x10000000 + (items.length : Int)) - 0x10000000 = (items.length : Int) := by omega
      rw [e2]
      exact main items.length (Nat.le_refl _) (by omega) (Or.inl rfl)
  · have e1 : (if it < 0x10000000 then 0x10000000 + (items.length : Int) else it) = it := if_neg (by omega)
    rw [e1]
    by_cases h0 : k = 0
    · subst h0
      rw [if_neg (by omega), hr]
      obtain ⟨c, c1, c2, c3⟩ := field_spec items items skips id field extra hf he it field.length (Nat.le_refl _) (Or.inl ⟨by omega, rfl⟩)
      exact ⟨c, c1, by rw [c2], by rw [c2]; exact hs, c3⟩
    · rcases hk with hk | hk
      · exact absurd hk h0
      · have hlt : k < items.length := by
          obtain ⟨x, hx, _⟩ := hk
          rcases Nat.lt_or_ge k items.length with h | h
          · exact h
          · rw [List.getElem?_eq_none h] at hx; cases hx
        rw [if_pos (by omega), hr]
        have e2 : it - 0x10000000 = (k : Int) := by omega
        rw [e2]
        exact main k (by omega) (by omega) (Or.inr hk)
  · have e1 : (if it < 0x10000000 then 0x10000000 + (items.length : Int) else it) = it := if_neg (by omega)
    rw [e1, if_neg (by omega), hr]
    obtain ⟨c, c1, c2, c3⟩ := field_spec items items skips id field extra hf he it k hk (Or.inr e)
    exact ⟨c, c1, by rw [c2], by rw [c2]; exact hs, c3⟩
  · have e1 : (if it < 0x10000000 then 0x10000000 + (items.length : Int) else it) = it := if_neg (by omega)
    rw [e1, if_neg (by omega), hr]
    unfold searchField
    have e2 : (if it < 0x60000000 then 0x60000000 + (field.length : Int) else it) = it := if_neg (by omega)
    rw [e2]
    dsimp only
    rw [if_neg (by omega)]
    obtain ⟨c, c1, c2, c3⟩ := extra_spec items items skips id field extra he it k hk (Or.inr e)
    exact ⟨c, c1, by rw [c2], by rw [c2]; exact hs, c3⟩

end Verif.Scope
