import Verif.ScopeRun
/-! # C64, C65, C66: walking a scope, exports and imports, the union of two scopes -/
namespace Verif.Scope
open Verif

/-- the visible items at positions `a` up to `b`, in order, with their positions -/
def walk {α : Type} (items : List α) (skips : List ScopeSkip) (a b : Nat) : List (α × Int) :=
  (List.range' a (b - a)).filterMap fun i => if visible skips i = true then (items[i]?).map fun x => (x, (i : Int)) else none

theorem walk_split {α : Type} (items : List α) (skips : List ScopeSkip) (a b c : Nat) (h1 : a ≤ b) (h2 : b ≤ c) :
    walk items skips a c = walk items skips a b ++ walk items skips b c := by
  unfold walk
  rw [← List.filterMap_append, show c - a = (b - a) + (c - b) by omega]
  have := List.range'_append_1 (s := a) (m := b - a) (n := c - b)
  rw [show a + (b - a) = b by omega] at this
  rw [← this]

theorem walk_hidden {α : Type} (items : List α) (skips : List ScopeSkip) (a b : Nat) (h : ∀ i, a ≤ i → i < b → ¬ visible skips i = true) :
    walk items skips a b = [] := by
  unfold walk
  rw [List.filterMap_eq_nil_iff]
  intro i hi
  rw [List.mem_range'_1] at hi
  rw [if_neg (h i (by omega) (by omega))]

theorem filterMap_congr' {α β : Type} {f g : α → Option β} : ∀ (l : List α), (∀ x ∈ l, f x = g x) → l.filterMap f = l.filterMap g := by
  intro l
  induction l with
  | nil => intro _; rfl
  | cons x xs ih =>
    intro h
    rw [List.filterMap_cons, List.filterMap_cons, h x (List.mem_cons_self ..), ih fun y hy => h y (List.mem_cons_of_mem _ hy)]

theorem walk_congr {α : Type} (items : List α) (s1 s2 : List ScopeSkip) (a b : Nat) (h : ∀ i, a ≤ i → i < b → (visible s1 i = true ↔ visible s2 i = true)) :
    walk items s1 a b = walk items s2 a b := by
  unfold walk
  apply filterMap_congr'
  intro i hi
  rw [List.mem_range'_1] at hi
  have := h i (by omega) (by omega)
  by_cases h1 : visible s1 i = true
  · rw [if_pos h1, if_pos (this.1 h1)]
  · rw [if_neg h1, if_neg (fun h2 => h1 (this.2 h2))]

theorem walk_empty {α : Type} (items : List α) (skips : List ScopeSkip) (a b : Nat) (h : b ≤ a) : walk items skips a b = [] := by
  unfold walk
  rw [show b - a = 0 by omega]; rfl

theorem walk_succ {α : Type} (items : List α) (skips : List ScopeSkip) (a b : Nat) (h : a < b) (x : α) (hx : items[a]? = some x)
    (hv : visible skips a = true) : walk items skips a b = (x, (a : Int)) :: walk items skips (a + 1) b := by
  unfold walk
  rw [show b - a = (b - (a + 1)) + 1 by omega, List.range'_succ, List.filterMap_cons]
  simp only [hv, if_true, hx, Option.map_some]

theorem visit_spec {α : Type} (items : List α) (skips : List ScopeSkip) : ∀ (n a : Nat), a + n ≤ items.length →
    (∀ i, a ≤ i → i < a + n → visible skips i = true) → visit items a n = some (walk items skips a (a + n)) := by
  intro n
  induction n with
  | zero => intro a _ _; rw [walk_empty _ _ _ _ (by omega)]; rfl
  | succ n ih =>
    intro a ha hv
    rw [visit, get_nat, List.getElem?_eq_getElem (by omega)]
    have := ih (a + 1) (by omega) fun i h1 h2 => hv i (by omega) (by omega)
    simp only [Option.bind_eq_bind, Option.bind_some]
    rw [show ((a : Int) + 1) = ((a + 1 : Nat) : Int) by omega, this]
    rw [walk_succ items skips a (a + (n + 1)) (by omega) items[a] (List.getElem?_eq_getElem (by omega)) (hv a (by omega) (by omega)),
      show a + (n + 1) = a + 1 + n by omega]
    rfl

theorem eachFrom_spec {α : Type} (items : List α) : ∀ (rest : List ScopeSkip) (i0 : Nat), WF rest items.length →
    eachFrom items i0 (rest ++ [⟨items.length, items.length⟩]) = some (walk items rest i0 items.length) := by
  intro rest
  induction rest with
  | nil =>
    intro i0 _
    show eachFrom items i0 [⟨items.length, items.length⟩] = _
    unfold eachFrom
    by_cases h : (items.length : Int) ≤ i0
    · rw [if_pos h, walk_empty _ _ _ _ (by omega)]; rfl
    · rw [if_neg h]
      dsimp only
      have := visit_spec items [] (items.length - i0) i0 (by omega) (fun i _ _ => rfl)
      rw [show ((items.length : Int) - i0).toNat = items.length - i0 by omega, this, show i0 + (items.length - i0) = items.length by omega]
      simp only [eachFrom, Option.bind_eq_bind, Option.bind_some, List.append_nil]
  | cons ss rest ih =>
    intro i0 hw
    have hb := hw.2 ss (List.mem_cons_self ..)
    have hp := List.pairwise_cons.1 hw.1
    have hwr : WF rest items.length := ⟨hp.2, fun s hs => hw.2 s (List.mem_cons_of_mem _ hs)⟩
    have hsame : ∀ i : Nat, ¬ (ss.start ≤ i ∧ (i : Int) < ss.stop) → (visible (ss :: rest) i = true ↔ visible rest i = true) := by
      intro i hi
      rw [vis_iff, vis_iff]
      constructor
      · intro h s hs; exact h s (List.mem_cons_of_mem _ hs)
      · intro h s hs
        rcases List.mem_cons.1 hs with rfl | hs
        · exact hi
        · exact h s hs
    rw [List.cons_append, eachFrom]
    by_cases h : ss.stop ≤ i0
    · rw [if_pos h, ih i0 hwr]
      congr 1
      exact (walk_congr items _ _ _ _ fun i h1 _ => hsame i (by omega)).symm
    · rw [if_neg h]
      have e1 : ss.stop = ((ss.stop.toNat : Nat) : Int) := by omega
      rw [e1, ih ss.stop.toNat hwr]
      have hv : visit items (i0 : Int) (ss.start - i0).toNat = some (walk items (ss :: rest) i0 (i0 + (ss.start - i0).toNat)) := by
        apply visit_spec
        · by_cases h1 : ss.start ≤ i0
          · have : (ss.start - i0).toNat = 0 := by omega
            rw [this]
            omega
          · omega
        · intro i h1 h2
          rw [vis_iff]
          intro s hs
          rcases List.mem_cons.1 hs with rfl | hs
          · omega
          · have := hp.1 s hs
            omega
      rw [hv]
      simp only [Option.bind_eq_bind, Option.bind_some, Option.some.injEq]
      rw [walk_split items (ss :: rest) i0 (i0 + (ss.start - i0).toNat) items.length (by omega) (by omega),
        walk_split items (ss :: rest) (i0 + (ss.start - i0).toNat) ss.stop.toNat items.length (by omega) (by omega),
        walk_hidden items (ss :: rest) (i0 + (ss.start - i0).toNat) ss.stop.toNat, List.nil_append]
      · congr 1
        exact (walk_congr items _ _ _ _ fun i h1 _ => hsame i (by omega)).symm
      · intro i h1 h2
        rw [vis_iff]
        intro h3
        exact h3 ss (List.mem_cons_self ..) (by omega)

/-- **C64** Walking a scope forwards visits exactly the visible items from the given position on, in order, once each. -/
theorem each_visits {α : Type} (items : List α) (skips : List ScopeSkip) (hw : WF skips items.length) (start : Nat) :
    each items skips start = some (walk items skips start items.length) := eachFrom_spec items skips start hw

/-- **C64** Counting a scope counts its visible items. -/
theorem count_counts {α : Type} (items : List α) (skips : List ScopeSkip) (hw : WF skips items.length) :
    count items skips = some ((List.range items.length).filter fun i => visible skips i).length := by
  unfold count
  rw [show each items skips = each items skips ((0 : Nat) : Int) from rfl, each_visits items skips hw 0]
  simp only [Option.map_some, Option.some.injEq]
  unfold walk
  rw [Nat.sub_zero, ← List.range_eq_range']
  have : ∀ n ≤ items.length, (List.filterMap (fun i => if visible skips i = true then (items[i]?).map fun x => (x, (i : Int)) else none) (List.range n)).length =
      ((List.range n).filter fun i => visible skips i).length := by
    intro n
    induction n with
    | zero => intro _; rfl
    | succ n ih =>
      intro h
      rw [List.range_succ, List.filterMap_append, List.filter_append, List.length_append, List.length_append, ih (by omega)]
      congr 1
      by_cases hv : visible skips n = true
      · simp [hv, List.getElem?_eq_getElem (show n < items.length by omega)]
      · simp [hv]
  exact this _ (Nat.le_refl _)

theorem reveachFrom_spec {α : Type} (items : List α) : ∀ (rev : List ScopeSkip), rev.Pairwise (fun a b => b.stop ≤ a.start) →
    (∀ s ∈ rev, 0 ≤ s.start ∧ s.start < s.stop) → ∀ (i : Nat), i ≤ items.length → (∀ s ∈ rev, s.stop ≤ i) →
    reveachFrom items rev i = some (walk items rev 0 i).reverse := by
  intro rev
  have last : ∀ (rev : List ScopeSkip) (i : Nat) (h : i < items.length), visible rev i = true →
      (walk items rev 0 (i + 1)).reverse = (items[i], (i : Int)) :: (walk items rev 0 i).reverse := by
    intro rev i h hv
    rw [walk_split items rev 0 i (i + 1) (by omega) (by omega), List.reverse_append,
      walk_succ items rev i (i + 1) (by omega) items[i] (List.getElem?_eq_getElem h) hv, walk_empty _ _ _ _ (by omega)]
    rfl
  induction rev with
  | nil =>
    intro _ _ i
    induction i with
    | zero => intro _ _; rw [reveachFrom, walk_empty _ _ _ _ (by omega)]; rfl
    | succ i ih =>
      intro hi hs
      rw [reveachFrom]
      rw [List.getElem?_eq_getElem (by omega), ih (by omega) (fun _ h => by cases h), last [] i (by omega) rfl]
      rfl
  | cons s rest ihr =>
    intro hp hb i
    have hp' := List.pairwise_cons.1 hp
    have hb0 := hb s (List.mem_cons_self ..)
    have hbr := fun x hx => hb x (List.mem_cons_of_mem _ hx)
    induction i with
    | zero => intro _ _; rw [reveachFrom, walk_empty _ _ _ _ (by omega)]; rfl
    | succ i ih =>
      intro hi hs
      have hs0 := hs s (List.mem_cons_self ..)
      rw [reveachFrom]
      by_cases h : (i : Int) = s.stop - 1
      · rw [if_pos h, ihr hp'.2 hbr s.start.toNat (by omega) (fun x hx => by have := hp'.1 x hx; omega),
          walk_split items (s :: rest) 0 s.start.toNat (i + 1) (by omega) (by omega), walk_hidden items (s :: rest) s.start.toNat (i + 1),
          List.append_nil]
        · congr 2
          refine walk_congr items _ _ _ _ fun k _ hk => ?_
          rw [vis_iff, vis_iff]
          constructor
          · intro h1 x hx
            rcases List.mem_cons.1 hx with rfl | hx
            · omega
            · exact h1 x hx
          · intro h1 x hx; exact h1 x (List.mem_cons_of_mem _ hx)
        · intro k h1 h2
          rw [vis_iff]
          intro h3
          exact h3 s (List.mem_cons_self ..) (by omega)
      · rw [if_neg h, List.getElem?_eq_getElem (by omega)]
        have hv : visible (s :: rest) i = true := by
          rw [vis_iff]
          intro x hx
          rcases List.mem_cons.1 hx with rfl | hx
          · omega
          · have := hp'.1 x hx
            omega
        have hs' : ∀ x ∈ s :: rest, x.stop ≤ (i : Int) := by
          intro x hx
          rcases List.mem_cons.1 hx with rfl | hx
          · omega
          · have := hp'.1 x hx
            omega
        rw [ih (by omega) hs', last (s :: rest) i (by omega) hv]
        rfl

/-- **C64** Walking a scope backwards visits the same items in the opposite order. -/
theorem reveach_reverses {α : Type} (items : List α) (skips : List ScopeSkip) (hw : WF skips items.length) :
    reveach items skips = (each items skips).map List.reverse := by
  rw [show each items skips = each items skips ((0 : Nat) : Int) from rfl, each_visits items skips hw 0]
  unfold reveach
  rw [reveachFrom_spec items skips.reverse (by rw [List.pairwise_reverse]; exact hw.1)
    (fun s hs => ⟨(hw.2 s (List.mem_reverse.1 hs)).1, (hw.2 s (List.mem_reverse.1 hs)).2.1⟩) items.length (Nat.le_refl _)
    (fun s hs => (hw.2 s (List.mem_reverse.1 hs)).2.2)]
  simp only [Option.map_some]
  congr 2
  exact walk_congr items _ _ _ _ fun i _ _ => by rw [vis_reverse]

/-- **C64** The skips the solver keeps are always in order, disjoint and not empty, so all of the above holds of them: the
ones it starts with, and those made when a function is entered. -/
theorem skips_well_formed (sk : List ScopeSkip) (l n : Nat) (hw : WF sk l) (hl : l ≤ n) :
    ∃ sk', ScopeSkip_push sk l n = some sk' ∧ WF sk' n ∧ ∀ i, visible sk' i = true ↔ (visible sk i = true ∧ ¬ (l ≤ i ∧ i < n)) :=
  push_spec hw hl

/-! ### C66: the union of two scopes -/

theorem revealOne_spec : ∀ (eph : List ScopeSkip) (loc : ScopeSkip) (last : Int), eph.Pairwise (fun a b => a.stop ≤ b.start) →
    (∀ e ∈ eph, e.start < e.stop ∧ last ≤ e.start) → loc.start < loc.stop →
    (∀ l, revealOne loc last eph = some l → loc.start ≤ l.start ∧ l.start < l.stop ∧ l.stop = loc.stop) ∧
    (∀ i : Nat, loc.start ≤ i → (i : Int) < loc.stop → (last ≤ loc.start ∨ loc.start < last) → ¬ visible eph i = true →
      ∃ l, revealOne loc last eph = some l ∧ l.start ≤ i) := by
  intro eph
  induction eph with
  | nil =>
    intro loc last _ _ hl
    refine ⟨fun l h => ?_, fun i h1 h2 _ _ => ⟨loc, rfl, h1⟩⟩
    cases h
    exact ⟨Int.le_refl _, hl, rfl⟩
  | cons e rest ih =>
    intro loc last hp hb hl
    have hp' := List.pairwise_cons.1 hp
    have hb0 := hb e (List.mem_cons_self ..)
    have hbr : ∀ x ∈ rest, x.start < x.stop ∧ e.stop ≤ x.start := fun x hx => ⟨(hb x (List.mem_cons_of_mem _ hx)).1, hp'.1 x hx⟩
    unfold revealOne
    dsimp only
    generalize hst : (if loc.start ≥ last ∧ loc.start < e.start then e.start else loc.start) = st
    have hge : loc.start ≤ st := by rw [← hst]; split <;> omega
    by_cases h1 : st ≥ loc.stop
    · rw [if_pos h1]
      refine ⟨(fun l h => by cases h), fun i h2 h3 _ h5 => ?_⟩
      exfalso
      apply h5
      have hmoved : loc.start ≥ last ∧ loc.start < e.start := by
        by_cases hm : loc.start ≥ last ∧ loc.start < e.start
        · exact hm
        · rw [if_neg hm] at hst; omega
      rw [if_pos hmoved] at hst
      rw [vis_iff]
      intro x hx
      rcases List.mem_cons.1 hx with rfl | hx
      · omega
      · have := hp'.1 x hx
        omega
    · rw [if_neg h1]
      have key : ∀ i : Nat, loc.start ≤ i → (i : Int) < loc.stop → ¬ visible (e :: rest) i = true → st ≤ i := by
        intro i h2 h3 h5
        by_cases hm : loc.start ≥ last ∧ loc.start < e.start
        · rw [if_pos hm] at hst
          by_cases h6 : st ≤ i
          · exact h6
          · exfalso
            apply h5
            rw [vis_iff]
            intro x hx
            rcases List.mem_cons.1 hx with rfl | hx
            · omega
            · have := hp'.1 x hx
              omega
        · rw [if_neg hm] at hst; omega
      by_cases h2 : e.start > loc.stop
      · rw [if_pos h2]
        refine ⟨fun l h => ?_, fun i h3 h4 _ h5 => ⟨_, rfl, key i h3 h4 h5⟩⟩
        cases h
        exact ⟨hge, by show st < loc.stop; omega, rfl⟩
      · rw [if_neg h2]
        obtain ⟨a1, a2⟩ := ih { loc with start := st } e.stop hp'.2 hbr (by show st < loc.stop; omega)
        refine ⟨fun l h => ?_, fun i h3 h4 _ h5 => ?_⟩
        · have := a1 l h
          exact ⟨by have := this.1; simp only at this; omega, this.2⟩
        · have h6 := key i h3 h4 h5
          by_cases h7 : visible rest i = true
          · -- hidden by `e` itself
            have h8 : e.start ≤ i ∧ (i : Int) < e.stop := by
              by_cases h8 : e.start ≤ i ∧ (i : Int) < e.stop
              · exact h8
              · exfalso
                apply h5
                rw [vis_iff] at h7 ⊢
                intro x hx
                rcases List.mem_cons.1 hx with rfl | hx
                · exact h8
                · exact h7 x hx
            -- from here on the start does not move: it is below `e.stop`
            have stay : ∀ (r : List ScopeSkip) (last : Int), r.Pairwise (fun a b => a.stop ≤ b.start) → (∀ x ∈ r, x.start < x.stop ∧ last ≤ x.start) →
                st < last → st < loc.stop → revealOne { loc with start := st } last r = some { loc with start := st } := by
              intro r
              induction r with
              | nil => intro last _ _ _ _; rfl
              | cons y ys ihy =>
                intro last hpy hby hlt hlt2
                have hpy' := List.pairwise_cons.1 hpy
                have hy0 := hby y (List.mem_cons_self ..)
                unfold revealOne
                dsimp only
                have hs1 : (if st ≥ last ∧ st < y.start then y.start else st) = st := if_neg (by omega)
                rw [hs1, if_neg (by omega)]
                split
                · rfl
                · exact ihy y.stop hpy'.2 (fun x hx => ⟨(hby x (List.mem_cons_of_mem _ hx)).1, hpy'.1 x hx⟩) (by omega) hlt2
            exact ⟨_, stay rest e.stop hp'.2 hbr (by omega) (by omega), h6⟩
          · obtain ⟨l, e1, e2⟩ := a2 i h6 h4 (by omega) h7
            exact ⟨l, e1, e2⟩

/-- the callee's scope: its skips, and nothing from `eph_end` on -/
def closedAt (eph : List ScopeSkip) (eph_end : Int) : List ScopeSkip := eph ++ [⟨eph_end, 2147483647⟩]

/-- **C66**, in part: searching in the union of two scopes never hides what the caller sees, and never shows what neither
sees; and the result is again well formed.  Missing: everything the callee sees is shown, which is false
(`union_hides`). -/
theorem union_between_partial (loc eph : List ScopeSkip) (n m : Nat) (hl : WF loc n) (he : WF eph m) (hm : (m : Int) < 2147483647) :
    WF (reveal loc eph m) n ∧ ∀ i : Nat,
      (visible loc i = true → visible (reveal loc eph m) i = true) ∧
      (visible (reveal loc eph m) i = true → visible loc i = true ∨ visible (closedAt eph m) i = true) := by
  have hep : (closedAt eph m).Pairwise (fun a b => a.stop ≤ b.start) :=
    List.pairwise_append.2 ⟨he.1, List.pairwise_singleton _ _, fun a ha b hb => by
      rw [List.mem_singleton.1 hb]; exact (he.2 a ha).2.2⟩
  have heb : ∀ e ∈ closedAt eph m, e.start < e.stop ∧ (0 : Int) ≤ e.start := by
    intro e h
    rcases List.mem_append.1 h with h | h
    · exact ⟨(he.2 e h).2.1, (he.2 e h).1⟩
    · rw [List.mem_singleton.1 h]; exact ⟨hm, by show (0 : Int) ≤ m; omega⟩
  have hone : ∀ x ∈ loc, ∀ l, revealOne x 0 (closedAt eph m) = some l → x.start ≤ l.start ∧ l.start < l.stop ∧ l.stop = x.stop :=
    fun x hx => (revealOne_spec _ x 0 hep heb (hl.2 x hx).2.1).1
  have hmem : ∀ l, l ∈ reveal loc eph m ↔ ∃ x ∈ loc, revealOne x 0 (closedAt eph m) = some l := by
    intro l; unfold reveal closedAt; rw [List.mem_filterMap]
  refine ⟨⟨?_, ?_⟩, fun i => ⟨?_, ?_⟩⟩
  · unfold reveal
    rw [List.pairwise_filterMap]
    refine List.Pairwise.imp_of_mem (fun {a b} ha hb hab x hx y hy => ?_) hl.1
    have h1 := hone a ha x hx
    have h2 := hone b hb y hy
    omega
  · intro s hs
    obtain ⟨x, hx, e⟩ := (hmem s).1 hs
    have h1 := hone x hx s e
    have h2 := hl.2 x hx
    exact ⟨by omega, by omega, by omega⟩
  · intro h
    rw [vis_iff] at h ⊢
    intro s hs
    obtain ⟨x, hx, e⟩ := (hmem s).1 hs
    have h1 := hone x hx s e
    have := h x hx
    omega
  · intro h
    by_cases h1 : visible loc i = true
    · exact Or.inl h1
    · right
      by_cases h2 : visible (closedAt eph m) i = true
      · exact h2
      · exfalso
        rw [vis_iff] at h1
        have : ∃ x ∈ loc, x.start ≤ i ∧ (i : Int) < x.stop := by
          apply Classical.byContradiction
          intro h3
          apply h1
          intro s hs h4
          exact h3 ⟨s, hs, h4⟩
        obtain ⟨x, hx, h3, h4⟩ := this
        obtain ⟨l, e, hle⟩ := (revealOne_spec _ x 0 hep heb (hl.2 x hx).2.1).2 i h3 h4 (by omega) h2
        rw [vis_iff] at h
        have h5 := hone x hx l e
        exact h l ((hmem l).2 ⟨x, hx, e⟩) (by omega)

/-- **C66**, in part: if the callee has no skips of its own, the union shows exactly what either sees. -/
theorem union_exact_partial (loc : List ScopeSkip) (n m : Nat) (hl : WF loc n) (hm : (m : Int) < 2147483647) (i : Nat) (hi : (i : Int) < 2147483647) :
    visible (reveal loc [] m) i = true ↔ visible loc i = true ∨ i < m := by
  obtain ⟨_, h⟩ := union_between_partial loc [] n m hl (WF.nil _) hm
  constructor
  · intro h1
    rcases (h i).2 h1 with h2 | h2
    · exact Or.inl h2
    · right
      rw [vis_iff] at h2
      have := h2 ⟨m, 2147483647⟩ (by unfold closedAt; simp)
      simp only at this
      omega
  · rintro (h1 | h1)
    · exact (h i).1 h1
    · rw [vis_iff]
      intro s hs h2
      unfold reveal at hs
      rw [List.mem_filterMap] at hs
      obtain ⟨x, hx, e⟩ := hs
      have hb := hl.2 x hx
      rw [List.nil_append] at e
      unfold revealOne at e
      dsimp only at e
      by_cases h3 : x.start ≥ 0 ∧ x.start < (m : Int)
      · rw [if_pos h3] at e
        split at e
        · cases e
        · split at e
          · cases e; simp only at h2; omega
          · unfold revealOne at e; cases e; simp only at h2; omega
      · rw [if_neg h3] at e
        split at e
        · cases e
        · split at e
          · cases e; simp only at h2; omega
          · unfold revealOne at e; cases e; simp only at h2; omega

/-- **C66 is false** in general: of a hidden stretch of the caller's only the beginning is ever uncovered. -/
theorem union_hides : ∃ (loc eph : List ScopeSkip) (i : Nat), WF loc 10 ∧ WF eph 20 ∧ visible (closedAt eph 20) i = true ∧
    ¬ visible (reveal loc eph 20) i = true :=
  ⟨[⟨0, 10⟩], [⟨2, 4⟩], 5, ⟨by simp, by simp⟩, ⟨by simp, by simp⟩, by decide, by decide⟩

/-! ### C65: exports and imports -/

/-- **C65** A module exports its own items only, in the order declared, the public ones first, without leftovers of
lookups made in it. -/
theorem exports_own (modidOf : BitVec 64 → Int) (ownPub : BitVec 64 → Bool) (modid : Int) (what : List Item) :
    let own := what.filter fun x => decide (modidOf (target x) = modid)
    collect modidOf ownPub modid what =
      ((own.filter fun x => ownPub (target x)).map canSkipRest_clear ++ (own.filter fun x => !ownPub (target x)).map canSkipRest_clear,
       (own.filter fun x => ownPub (target x)).length) := by
  intro own
  have ht : ∀ x, target (canSkipRest_clear x) = target x := fun x => congrArg (·.2.1) (skel_clear x)
  have main : ∀ (l : List Item) (acc : List Item × List Item), l.foldl (fun (acc : List Item × List Item) item =>
      if modidOf (target item) ≠ modid then acc
      else
        let item := canSkipRest_clear item
        if ownPub (target item) then (acc.1 ++ [item], acc.2) else (acc.1, acc.2 ++ [item])) acc =
      (acc.1 ++ ((l.filter fun x => decide (modidOf (target x) = modid)).filter fun x => ownPub (target x)).map canSkipRest_clear,
       acc.2 ++ ((l.filter fun x => decide (modidOf (target x) = modid)).filter fun x => !ownPub (target x)).map canSkipRest_clear) := by
    intro l
    induction l with
    | nil => intro acc; simp
    | cons x xs ih =>
      intro acc
      rw [List.foldl_cons, ih]
      by_cases h : modidOf (target x) = modid
      · by_cases h2 : ownPub (target x) = true
        · simp [h, h2, ht]
        · simp [h, h2, ht]
      · simp [h]
  unfold collect
  dsimp only
  rw [main what ([], [])]
  simp only [List.nil_append, List.length_map]
  rfl

/-- **C65** Importing the public part of a module gives exactly its own public items, importing the private part exactly
the others; names, targets and shadowing are as declared, and nothing is flagged. -/
theorem imports_exports (modidOf : BitVec 64 → Int) (ownPub : BitVec 64 → Bool) (modid : Int) (what : List Item) (isPrivate : Bool) :
    let ex := collect modidOf ownPub modid what
    let imported := pub_or_priv isPrivate ex.1 ex.2
    imported.map skel = (what.filter fun x => decide (modidOf (target x) = modid) && (ownPub (target x) != isPrivate)).map skel ∧
    ∀ x ∈ imported, canSkipRest x = false := by
  intro ex imported
  have e := exports_own modidOf ownPub modid what
  have hex : ex = _ := e
  have himp : imported = ((what.filter fun x => decide (modidOf (target x) = modid) && (ownPub (target x) != isPrivate)).map canSkipRest_clear) := by
    show pub_or_priv isPrivate ex.1 ex.2 = _
    rw [hex]
    unfold pub_or_priv
    cases isPrivate with
    | false =>
      simp only [Bool.false_eq_true, if_false]
      rw [List.take_left' (by simp), List.filter_filter]
      congr 1
      apply List.filter_congr
      intro x _
      cases ownPub (target x) <;> simp
    | true =>
      simp only [if_true]
      rw [List.drop_left' (by simp), List.filter_filter]
      congr 1
      apply List.filter_congr
      intro x _
      cases ownPub (target x) <;> simp
  rw [himp]
  refine ⟨?_, ?_⟩
  · rw [List.map_map]
    apply List.map_congr_left
    intro x _
    exact skel_clear x
  · intro x hx
    obtain ⟨y, _, rfl⟩ := List.mem_map.1 hx
    exact clear_flag y

theorem seek_spec (l : List Item) (id : Str) (base : Nat) : ∀ (n it : Nat), base + l.length - it = n → base ≤ it → it ≤ base + l.length →
    ((seek l id base it).1 = none ∧ (seek l id base it).2 = base + l.length ∧
      (l.drop (it - base)).filterMap (fun x => if x.id = id then some (target x) else none) = []) ∨
    ∃ t, (seek l id base it).1 = some t ∧ it < (seek l id base it).2 ∧ (seek l id base it).2 ≤ base + l.length ∧
      (l.drop (it - base)).filterMap (fun x => if x.id = id then some (target x) else none) =
        t :: (l.drop ((seek l id base it).2 - base)).filterMap (fun x => if x.id = id then some (target x) else none) := by
  intro n
  induction n with
  | zero =>
    intro it h1 h2 h3
    rw [seek, dif_neg (by omega)]
    refine Or.inl ⟨rfl, by show it = _; omega, ?_⟩
    rw [List.drop_eq_nil_of_le (by omega)]; rfl
  | succ n ih =>
    intro it h1 h2 h3
    rw [seek, dif_pos (by omega), List.getElem?_eq_getElem (by omega)]
    dsimp only
    rw [List.drop_eq_getElem_cons (show it - base < l.length by omega), List.filterMap_cons]
    by_cases h : l[it - base].id = id
    · simp only [h, if_true]
      exact Or.inr ⟨_, rfl, by omega, by omega, by rw [show it + 1 - base = it - base + 1 by omega]⟩
    · simp only [h, if_false]
      rcases ih (it + 1) (by omega) (by omega) (by omega) with ⟨a, b, c⟩ | ⟨t, a, b, c, d⟩
      · exact Or.inl ⟨a, b, by rw [show it + 1 - base = it - base + 1 by omega] at c; exact c⟩
      · exact Or.inr ⟨t, a, by omega, c, by rw [show it + 1 - base = it - base + 1 by omega] at d; exact d⟩

/-- **C65** Searching another module finds exactly its items of that name in order of declaration, then the fields. -/
theorem search_pub_complete (items field : List Item) (id : Str) (n : Nat) (hn : items.length + field.length < n) :
    searchPubAll items field id n 0 = ((items ++ field).filter fun x => decide (x.id = id)).map target := by
  let F := fun x : Item => if x.id = id then some (target x) else none
  have hF : ∀ l : List Item, l.filterMap F = (l.filter fun x => decide (x.id = id)).map target := by
    intro l
    induction l with
    | nil => rfl
    | cons x xs ih =>
      rw [List.filterMap_cons]
      by_cases h : x.id = id
      · simp [F, h, ih]
      · simp [F, h, ih]
  have second : ∀ (n it : Nat), items.length ≤ it → it ≤ items.length + field.length → items.length + field.length - it < n →
      searchPubAll items field id n it = (field.drop (it - items.length)).filterMap F := by
    intro n
    induction n with
    | zero => intro it _ _ h; omega
    | succ n ih =>
      intro it h1 h2 h3
      have h0 : seek items id 0 it = (none, it) := by rw [seek, dif_neg (by omega)]
      have hsp : searchPub items field id it = seek field id items.length it := by unfold searchPub; rw [h0]
      rw [searchPubAll, hsp]
      rcases seek_spec field id items.length _ it rfl h1 h2 with ⟨a, b, c⟩ | ⟨t, a, b, c, d⟩
      · generalize seek field id items.length it = r at *
        obtain ⟨r1, r2⟩ := r
        simp only at a b; subst a; exact c.symm
      · generalize seek field id items.length it = r at *
        obtain ⟨r1, r2⟩ := r
        simp only at a b c d; subst a
        simp only
        rw [ih r2 (by omega) c (by omega)]
        exact d.symm
  have first : ∀ (n it : Nat), it ≤ items.length → items.length + field.length - it < n →
      searchPubAll items field id n it = (items.drop it).filterMap F ++ field.filterMap F := by
    intro n
    induction n with
    | zero => intro it _ h; omega
    | succ n ih =>
      intro it h1 h2
      have hs := seek_spec items id 0 _ it rfl (by omega) (by omega)
      simp only [Nat.sub_zero, Nat.zero_add] at hs
      rcases hs with ⟨a, b, c⟩ | ⟨t, a, b, c, d⟩
      · have h0 : seek items id 0 it = (none, items.length) := Prod.ext a b
        have hs2 := second (n + 1) items.length (Nat.le_refl _) (by omega) (by omega)
        have h00 : seek items id 0 items.length = (none, items.length) := by rw [seek, dif_neg (by omega)]
        have e1 : searchPub items field id it = searchPub items field id items.length := by unfold searchPub; rw [h0, h00]
        have e2 : searchPubAll items field id (n + 1) it = searchPubAll items field id (n + 1) items.length := by
          rw [searchPubAll, searchPubAll, e1]
        rw [e2, hs2, Nat.sub_self, List.drop_zero]
        show _ = List.filterMap (fun x => if x.id = id then some (target x) else none) (items.drop it) ++ _
        rw [c]; rfl
      · generalize hr : seek items id 0 it = r at *
        obtain ⟨r1, r2⟩ := r
        simp only at a b c d; subst a
        have e1 : searchPub items field id it = (some t, r2) := by unfold searchPub; rw [hr]
        rw [searchPubAll, e1]
        simp only
        rw [ih r2 c (by omega)]
        show _ = List.filterMap (fun x => if x.id = id then some (target x) else none) (items.drop it) ++ _
        rw [d]; rfl
  rw [first n 0 (by omega) (by omega), List.drop_zero, ← hF, List.filterMap_append]

/-! non-vacuity -/
example : WF [⟨1, 3⟩, ⟨4, 5⟩] 6 := ⟨by simp, by simp⟩
example : each ["a", "b", "c", "d", "e", "f"] [⟨1, 3⟩, ⟨4, 5⟩] = some [("a", 0), ("d", 3), ("f", 5)] := by decide +kernel
example : reveal [⟨2, 5⟩] [] 3 = [⟨3, 5⟩] := by decide

end Verif.Scope
