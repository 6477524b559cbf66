import Verif.CallArgsBind
/-!
# Lemmas: an accepted call binds as specified
-/
namespace Verif.CallArgs
open Spec

/-- The argument at each position: `Reorder.map`, or the arguments as they stand. -/
def lines (args : List Arg) : Reorder → List (Option Nat)
  | some map => map
  | none => (List.range args.length).map some

/-- The positions agree with the specification. -/
structure Agrees (s : Sig) (args : List Arg) (r : Reorder) : Prop where
  le : (lines args r).length ≤ s.params.length
  lt : ∀ i : Nat, i < (lines args r).length →
    (lines args r)[i]? = some (expect (visible s) args (shortBy s args) i)
  ge : ∀ i : Nat, (lines args r).length ≤ i → expect (visible s) args (shortBy s args) i = none

theorem restStart_eq {s : Sig} (h : s.rest1b = 0) : restStart s = s.params.length := by
  unfold restStart; simp [h]

/-- `tryMatchCall`'s loop bound. -/
def loopLen (s : Sig) (args : List Arg) (z : Bool) (r : Reorder) : Nat :=
  Nat.max (lines args r).length (if z then 0 else s.min)

theorem matchArgs_eq {t : Types} {s : Sig} {args : List Arg} {z : Bool} {r : Reorder} (hr : s.rest1b = 0) :
    matchArgs t s args z r =
      if (r.isSome && decide (collectOptional args ≠ []) && decide ((lines args r).length < args.length)
        && decide ((lines args r).length < Nat.min s.max s.params.length)) = true then .fail
      else if loopLen s args z r ≠ 0 ∧
        (r.isSome && decide ((lines args r).length < args.length) && decide (collectOptional args = [])) = true then .bug
      else matchLoops t s args r (loopLen s args z r) := by
  unfold matchArgs
  rw [restStart_eq hr]
  rcases r with _ | map
  · simp [lines, loopLen]
  · simp only [Nat.lt_irrefl, false_and, if_false, List.getElem?_eq_none (Nat.le_refl s.params.length), lines, loopLen, Option.isSome_some, Bool.true_and]
    rfl

theorem matchArgs_ok {t : Types} {s : Sig} {args : List Arg} {z : Bool} {r : Reorder} {m : Match}
    (hr : s.rest1b = 0) (h : matchArgs t s args z r = .ok m) :
    m.reorder = r ∧ matchLoop t s args r (List.range (loopLen s args z r)) = .ok m.usings := by
  rw [matchArgs_eq hr] at h
  split at h
  · cases h
  · split at h
    · cases h
    · unfold matchLoops at h
      rcases h1 : matchLoop t s args r (List.range (loopLen s args z r)) with us | _ | _
      · rw [h1] at h
        simp only at h
        rcases h2 : restLoop args r ((List.range (loopLen s args z r)).drop (restStart s)) with u | _ | _
        · rw [h2] at h; cases h; exact ⟨rfl, rfl⟩
        · rw [h2] at h; cases h
        · rw [h2] at h; cases h
      · rw [h1] at h; cases h
      · rw [h1] at h; cases h

/-- What `matchOne` does with the argument meant for a parameter. -/
def matchRes (t : Types) (args : List Arg) (i : Nat) (p : Param) : Option Nat → R Bool
  | some j =>
    match args[j]? with
    | none => .bug
    | some a => if p.must && a.name == "" then .fail else if t.fits i j then .ok false else .fail
  | none => if p.dflt || p.impl then .ok false else if !p.must && t.supplies i then .ok true else .fail

/-- `matchOne` for a position inside the lines. -/
theorem matchOne_in {t : Types} {s : Sig} {args : List Arg} {r : Reorder} {i : Nat} {p : Param} {o : Option Nat}
    (hr : s.rest1b = 0) (hp : s.params[i]? = some p) (ho : (lines args r)[i]? = some o) :
    matchOne t s args r i = matchRes t args i p o := by
  unfold matchOne
  rw [restStart_eq hr]
  have hlt : i < s.params.length := (List.getElem?_eq_some_iff.1 hp).1
  rw [if_neg (by omega), hp]
  rcases r with _ | map
  · simp only [lines, List.getElem?_map] at ho
    have hi : i < args.length := by
      rcases Nat.lt_or_ge i args.length with h | h
      · exact h
      · rw [List.getElem?_eq_none (by simpa using h)] at ho; cases ho
    rw [List.getElem?_range hi] at ho
    cases ho
    simp only [hi, if_true]; rfl
  · simp only [lines] at ho
    simp only [ho]
    cases o <;> rfl

theorem callerNode_cells {s : Sig} {args : List Arg} {r : Reorder} (h : Agrees s args r)
    (hne : ∀ p ∈ visible s, p.name ≠ "") (hd : ((visible s).map (·.name)).Nodup) :
    place r ((List.range args.length).map Slot.given) = .ok ((lines args r).map cellOf) := by
  rcases r with _ | map
  · simp [place, lines, cellOf, List.map_map, Function.comp_def]
  · simp only [place, lines]
    have hm : ∀ (i j : Nat), map[i]? = some (some j) → expect (visible s) args (shortBy s args) i = some j := by
      intro i j hij
      have hi : i < map.length := (List.getElem?_eq_some_iff.1 hij).1
      have := h.lt i hi
      simp only [lines] at this
      rw [hij] at this
      exact (Option.some.inj this).symm
    apply stealLoop_eq
    · apply entries_nodup
      intro i k j hi hk
      exact expect_inj hne hd (hm i j hi) (hm k j hk)
    · intro j hj
      unfold entries at hj
      rw [List.mem_filterMap] at hj
      obtain ⟨o, ho, e⟩ := hj
      simp only [id] at e
      subst e
      obtain ⟨i, hi⟩ := List.mem_iff_getElem?.1 ho
      have hlt := expect_lt (hm i j hi)
      rw [List.getElem?_map, List.getElem?_range hlt]; rfl

theorem resize_get (args : List Slot) (n i : Nat) (h : i < n) :
    (resize args n)[i]? = if i < args.length then args[i]? else some .empty := by
  unfold resize
  by_cases hi : i < args.length
  · rw [if_pos hi, List.getElem?_append_left (by rw [List.length_take]; exact Nat.lt_min.2 ⟨h, hi⟩),
      List.getElem?_take_of_lt h]
  · rw [if_neg hi, List.getElem?_append_right (by rw [List.length_take]; exact Nat.le_trans (Nat.min_le_right _ _) (by omega)),
      List.getElem?_replicate, if_pos (by rw [List.length_take, Nat.min_eq_right (by omega)]; omega)]

theorem resize_length (args : List Slot) (n : Nat) : (resize args n).length = n := by
  unfold resize
  rw [List.length_append, List.length_take, List.length_replicate]
  rcases Nat.le_total n args.length with h | h
  · rw [Nat.min_eq_left h]; omega
  · rw [Nat.min_eq_right h]; omega

theorem slots_get (s : Sig) (args : List Arg) (i : Nat) :
    (slots s args)[i]? = (s.params[i]?).map fun p => slotOf p (expect (visible s) args (shortBy s args) i) := by
  unfold slots
  rw [List.getElem?_map, List.getElem?_zipIdx]
  cases s.params[i]? <;> simp

theorem bind_core {t : Types} {s : Sig} {args : List Arg} {z : Bool} {r : Reorder} {m : Match} {out : List Slot}
    (wf : WellFormed s) (hb : Builds s args) (ha : Agrees s args r) (hz : z = (s.isType && args.isEmpty))
    (hm : matchArgs t s args z r = .ok m) (hc : callerNode s args.length m = .ok out) : out = slots s args ∧
    ∀ (i : Nat) (p : Param), s.params[i]? = some p →
      ∃ u, matchRes t args i p (expect (visible s) args (shortBy s args) i) = .ok u := by
  obtain ⟨hmr, hml⟩ := matchArgs_ok wf.noRest hm
  have hvd : ((visible s).map (·.name)).Nodup :=
    wf.distinct.sublist ((List.filter_sublist).map _)
  obtain ⟨hus, hall⟩ := matchLoop_spec t s args r _ _ List.nodup_range hml
  have hz' : z = false := by
    rw [hz]
    cases hty : s.isType
    · rfl
    · have := hb hty
      cases args with
      | nil => exact absurd rfl this
      | cons => rfl
  unfold callerNode at hc
  rw [hmr] at hc
  simp only at hc
  rw [callerNode_cells ha wf.named hvd] at hc
  simp only at hc
  rcases hcv : convert m.usings ((lines args r).map cellOf) with out1 | _ | _
  case fail => rw [hcv] at hc; cases hc
  case bug => rw [hcv] at hc; cases hc
  rw [hcv] at hc
  simp only at hc
  obtain ⟨c1, c2, c3⟩ := convert_spec _ _ _ hcv
  rw [List.length_map] at c1 c2 c3
  have hg : gather (restStart s) out1 = out1 := by
    unfold gather
    rw [restStart_eq wf.noRest, if_neg]
    rw [c1]; have := ha.le; omega
  rw [hg] at hc
  split at hc
  · rename_i hty
    simp only [Bool.and_eq_true, List.isEmpty_iff] at hty
    obtain ⟨hty, he⟩ := hty
    obtain ⟨tp1, tp2⟩ := wf.typeParams hty
    have hL : (lines args r).length = 0 := by rw [← c1, he]; rfl
    have hvis : visible s = [] := by
      rcases hv : visible s with _ | ⟨p, ps⟩
      · rfl
      · exfalso
        have hmin := tp2 (by rw [hv]; simp)
        have h0 : 0 < loopLen s args z r := by
          unfold loopLen; rw [hL, hz']
          simp only [Bool.false_eq_true, if_false]
          exact Nat.lt_of_lt_of_le hmin (Nat.le_max_right _ _)
        obtain ⟨u, hu, -⟩ := hall 0 (List.mem_range.2 h0)
        rcases hr : r with _ | map
        · rw [hr] at hL
          simp only [lines, List.length_map, List.length_range] at hL
          exact hb hty (List.length_eq_zero_iff.1 hL)
        · rw [hr] at hL hu
          simp only [lines] at hL
          unfold matchOne at hu
          rw [restStart_eq wf.noRest, tp1, hv] at hu
          simp [List.length_eq_zero_iff.1 hL] at hu
    cases hc
    constructor
    · unfold slots
      rw [tp1, hvis]; rfl
    · intro i p hp
      rw [tp1, hvis] at hp; cases hp
  · obtain ⟨f1, f2⟩ := fill_spec _ _ _ (resize_length _ _) hc
    refine ⟨?_, ?_⟩
    case refine_2 =>
      intro i p hp
      have hip : i < s.params.length := (List.getElem?_eq_some_iff.1 hp).1
      by_cases hi : i < (lines args r).length
      · have hn : i < loopLen s args z r := Nat.lt_of_lt_of_le hi (Nat.le_max_left _ _)
        obtain ⟨u, hu, -⟩ := hall i (List.mem_range.2 hn)
        rw [matchOne_in wf.noRest hp (ha.lt i hi)] at hu
        exact ⟨u, hu⟩
      · have hrs := resize_get out1 s.params.length i hip
        rw [if_neg (by omega)] at hrs
        obtain ⟨b, hb1, hb2⟩ := f2 i p _ hp hrs
        rw [ha.ge i (by omega)]
        simp only [fillOne] at hb2
        refine ⟨false, ?_⟩
        simp only [matchRes]
        rw [if_pos]
        by_cases hd : p.dflt = true
        · simp [hd]
        · rw [if_neg hd] at hb2
          by_cases hi' : p.impl = true
          · simp [hi']
          · rw [if_neg hi'] at hb2; cases hb2
    apply List.ext_getElem?
    intro i
    rw [slots_get]
    rcases hp : s.params[i]? with _ | p
    · rw [List.getElem?_eq_none]
      · rfl
      · rw [f1]; exact List.getElem?_eq_none_iff.1 hp
    · have hip : i < s.params.length := (List.getElem?_eq_some_iff.1 hp).1
      have hrs := resize_get out1 s.params.length i hip
      rw [Option.map_some]
      by_cases hi : i < (lines args r).length
      · have hline := ha.lt i hi
        have hn : i < loopLen s args z r := Nat.lt_of_lt_of_le hi (Nat.le_max_left _ _)
        obtain ⟨u, hu, huu⟩ := hall i (List.mem_range.2 hn)
        rw [matchOne_in wf.noRest hp hline] at hu
        rw [if_pos (by omega), c3 i hi] at hrs
        by_cases hmem : i ∈ m.usings
        · rw [if_pos hmem] at hrs
          obtain ⟨b, hb1, hb2⟩ := f2 i p _ hp hrs
          have hut := huu.2 hmem
          subst hut
          rw [hb1]
          cases hb2
          rcases he : expect (visible s) args (shortBy s args) i with _ | j
          · rw [he] at hu
            simp only [matchRes] at hu
            by_cases hdi : (p.dflt || p.impl) = true
            · rw [if_pos hdi] at hu; cases hu
            · simp only [Bool.or_eq_true, not_or, Bool.not_eq_true] at hdi
              simp [slotOf, hdi.1, hdi.2]
          · rw [he] at hu
            simp only [matchRes] at hu
            rcases haj : args[j]? with _ | a
            · rw [haj] at hu; cases hu
            · rw [haj] at hu
              simp only at hu
              split at hu
              · cases hu
              · split at hu <;> cases hu
        · rw [if_neg hmem, List.getElem?_map, hline] at hrs
          obtain ⟨b, hb1, hb2⟩ := f2 i p _ hp hrs
          rw [hb1]
          rcases he : expect (visible s) args (shortBy s args) i with _ | j
          · rw [he] at hu hb2
            simp only [cellOf, fillOne] at hb2
            simp only [slotOf]
            by_cases hd : p.dflt = true
            · rw [if_pos hd] at hb2 ⊢; cases hb2; rfl
            · rw [if_neg hd] at hb2 ⊢
              by_cases hi' : p.impl = true
              · rw [if_pos hi'] at hb2 ⊢; cases hb2; rfl
              · rw [if_neg hi'] at hb2; cases hb2
          · rw [he] at hb2
            cases hb2; rfl
      · rw [if_neg (by omega)] at hrs
        obtain ⟨b, hb1, hb2⟩ := f2 i p _ hp hrs
        rw [hb1, ha.ge i (by omega)]
        simp only [fillOne] at hb2
        simp only [slotOf]
        by_cases hd : p.dflt = true
        · rw [if_pos hd] at hb2 ⊢; cases hb2; rfl
        · rw [if_neg hd] at hb2 ⊢
          by_cases hi' : p.impl = true
          · rw [if_pos hi'] at hb2 ⊢; cases hb2; rfl
          · rw [if_neg hi'] at hb2; cases hb2

/-! ## Positional calls -/

theorem noNames {args : List Arg} (h : collectNames args = []) : ∀ a ∈ args, a.name = "" := by
  unfold collectNames at h
  split at h
  · rename_i hany
    have : args = [] := by simpa using h
    subst this; intro a ha; cases ha
  · rename_i hany
    intro a ha
    simp only [List.any_eq_true, not_exists, not_and, bne_iff_ne, ne_eq, Classical.not_not] at hany
    exact hany a ha

theorem someName {args : List Arg} (h : collectNames args ≠ []) : collectNames args = args.map (·.name) := by
  unfold collectNames at h ⊢
  split at h
  · rename_i hany; rw [if_pos hany]
  · exact absurd rfl h

theorem collectOptional_mem {args : List Arg} {j : Nat} :
    j ∈ collectOptional args ↔ ∃ a, args[j]? = some a ∧ a.opt = true := by
  unfold collectOptional
  rw [List.mem_filter, List.mem_range]
  constructor
  · rintro ⟨h, h2⟩
    rw [List.getElem?_eq_getElem h] at h2 ⊢
    exact ⟨_, rfl, h2⟩
  · rintro ⟨a, h, h2⟩
    rw [h]
    exact ⟨(List.getElem?_eq_some_iff.1 h).1, h2⟩

theorem expect_positional {V : List Param} {args : List Arg} (nu : Nat) (hne : ∀ p ∈ V, p.name ≠ "")
    (ha : ∀ a ∈ args, a.name = "") {i : Nat} (hi : i < V.length) :
    expect V args nu i = if nu ≤ i ∧ i - nu < args.length then some (i - nu) else none := by
  have hnamed : ∀ p ∈ V, named args p.name = none := by
    intro p hp
    unfold named
    rw [List.findIdx?_eq_none_iff]
    intro a haa
    have := hne p hp
    simp [ha a haa, Ne.symm this]
  have hrank : rank V args i = i := by
    unfold rank
    rw [List.filter_eq_self.2, List.length_take, Nat.min_eq_left (by omega)]
    intro p hp
    simp [free, hnamed p (List.mem_of_mem_take hp)]
  have hpos : positional args = List.range args.length := by
    unfold positional
    apply List.filter_eq_self.2
    intro j hj
    rw [List.mem_range] at hj
    unfold isPositional
    rw [List.getElem?_eq_getElem hj]
    simp [ha _ (List.getElem_mem hj)]
  unfold expect
  rw [List.getElem?_eq_getElem hi]
  simp only [hnamed _ (List.getElem_mem hi), hrank, hpos]
  by_cases h : i < nu
  · rw [if_pos h, if_neg (by omega)]
  · rw [if_neg h]
    by_cases h2 : i - nu < args.length
    · rw [if_pos ⟨by omega, h2⟩, List.getElem?_range h2]
    · rw [if_neg (by omega), List.getElem?_eq_none (by simpa using h2)]

theorem visible_le (s : Sig) : (visible s).length ≤ s.params.length := (List.filter_sublist).length_le

theorem agrees_positional {s : Sig} {args : List Arg} (wf : WellFormed s) (ha : ∀ a ∈ args, a.name = "")
    (hmax : args.length ≤ s.max) :
    Agrees s args (reorderByNumUsings s.params.length args.length (s.min - args.length)) := by
  have hv := visible_le s
  have hmax' := wf.max_eq
  have hmin := wf.min_le
  have key : ∀ i, expect (visible s) args (shortBy s args) i =
      if i < (visible s).length ∧ s.min - args.length ≤ i ∧ i - (s.min - args.length) < args.length
        then some (i - (s.min - args.length)) else none := by
    intro i
    by_cases hi : i < (visible s).length
    · rw [expect_positional _ wf.named ha hi]
      unfold shortBy
      by_cases h : s.min - args.length ≤ i ∧ i - (s.min - args.length) < args.length
      · rw [if_pos h, if_pos ⟨hi, h⟩]
      · rw [if_neg h, if_neg (by omega)]
    · rw [expect_past _ _ _ (by omega), if_neg (by omega)]
  unfold reorderByNumUsings
  by_cases h0 : s.min - args.length = 0
  · rw [if_pos h0]
    refine ⟨?_, ?_, ?_⟩
    · simp only [lines, List.length_map, List.length_range]; omega
    · intro i hi
      simp only [lines, List.length_map, List.length_range] at hi
      rw [key, if_pos (by omega), h0]
      simp only [lines, List.getElem?_map, List.getElem?_range hi]
      rfl
    · intro i hi
      simp only [lines, List.length_map, List.length_range] at hi
      rw [key, if_neg (by omega)]
  · rw [if_neg h0]
    have hne : ¬ ((List.range s.params.length).map fun i =>
      if s.min - args.length ≤ i ∧ i - (s.min - args.length) < args.length then some (i - (s.min - args.length))
        else none) = [] := by
      intro e
      have := congrArg List.length e
      simp only [List.length_map, List.length_range, List.length_nil] at this
      omega
    simp only [hne, if_false]
    refine ⟨?_, ?_, ?_⟩
    · simp [lines]
    · intro i hi
      simp only [lines, List.length_map, List.length_range] at hi
      rw [key]
      simp only [lines, List.getElem?_map, List.getElem?_range hi, Option.map_some]
      congr 1
      by_cases h : s.min - args.length ≤ i ∧ i - (s.min - args.length) < args.length
      · rw [if_pos h, if_pos (by omega)]
      · rw [if_neg h, if_neg (by omega)]
    · intro i hi
      simp only [lines, List.length_map, List.length_range] at hi
      rw [key, if_neg (by omega)]

/-! ## Named calls -/

/-- What `reorderByArgIDs` checks, and what it returns. -/
theorem reorder_ok {s : Sig} {args : List Arg} {opt0 : List Nat} {nu : Nat} {r : Reorder}
    (h : reorderByArgIDs (args.map (·.name)) opt0 s.params nu = .ok r) :
    boundOpt (visible s) args nu + ((visible s).filter Required).length ≤ args.length + nu ∧
    ((claims (visible s) args).length = args.length ∨
      (claims (visible s) args).length + ((args.map (·.name)).filter (· = "")).length +
        (opt0.filter fun j => !(claims (visible s) args).contains j).length = args.length) ∧
    r = ifNeeded (dropMisses (fullMap (visible s) args nu) nu) args.length := by
  unfold reorderByArgIDs at h
  rw [fold_visible] at h
  have hinv := inv_fold args nu opt0 _ (visible s) rfl (by
    intro p hp
    have := (List.mem_filter.1 hp).2
    simpa using this)
  unfold visible at hinv ⊢
  generalize hst : (List.filter (fun p => !p.inj) s.params).foldl (step (args.map (·.name))) _ = st at h hinv
  simp only [List.length_map] at h
  split at h
  · cases h
  · rename_i h1
    split at h
    · cases h
    · split at h
      · cases h
      · rename_i h2 h3
        simp only [R.ok.injEq] at h
        refine ⟨?_, ?_, ?_⟩
        · rw [← hinv.bound, ← hinv.required]; omega
        · rw [← hinv.used, ← hinv.optional]; omega
        · rw [← h, hinv.map]

theorem fullMap_get (V : List Param) (args : List Arg) (nu : Nat) {i : Nat} (h : i < V.length) :
    (fullMap V args nu)[i]? = some (expect V args nu i) := by
  unfold fullMap
  rw [List.getElem?_map, List.getElem?_range h]; rfl

theorem fullMap_length (V : List Param) (args : List Arg) (nu : Nat) : (fullMap V args nu).length = V.length := by
  simp [fullMap]

theorem ifNeeded_lines (args : List Arg) (map : List (Option Nat)) : lines args (ifNeeded map args.length) = map := by
  unfold ifNeeded
  split
  · rfl
  · rename_i h1
    split
    · rfl
    · rename_i h2
      simp only [ne_eq, Classical.not_not] at h1 h2
      simp only [lines]
      rw [← h1, ← h2]

theorem agrees_named {s : Sig} {args : List Arg} {opt0 : List Nat} {r : Reorder}
    (h : reorderByArgIDs (args.map (·.name)) opt0 s.params (s.min - args.length) = .ok r) : Agrees s args r := by
  obtain ⟨-, -, hr⟩ := reorder_ok h
  obtain ⟨k, e, hk, hnone, -⟩ := dropMisses_spec (fullMap (visible s) args (s.min - args.length)) (s.min - args.length)
  rw [fullMap_length] at hk hnone
  have hl : lines args r = (fullMap (visible s) args (s.min - args.length)).take k := by
    rw [hr, e, ifNeeded_lines]
  have hlen : (lines args r).length = k := by
    rw [hl, List.length_take, fullMap_length, Nat.min_eq_left hk]
  have hv := visible_le s
  refine ⟨by omega, ?_, ?_⟩
  · intro i hi
    rw [hlen] at hi
    rw [hl, List.getElem?_take_of_lt hi, fullMap_get _ _ _ (by omega)]; rfl
  · intro i hi
    rw [hlen] at hi
    rcases Nat.lt_or_ge i (visible s).length with hlt | hge
    · have := hnone i hi hlt
      rw [fullMap_get _ _ _ hlt] at this
      exact Option.some.inj this
    · exact expect_past _ _ _ hge

theorem builds_zero {s : Sig} {args : List Arg} (hb : Builds s args) : (s.isType && args.isEmpty) = false := by
  cases hty : s.isType
  · rfl
  · have := hb hty
    cases args with
    | nil => exact absurd rfl this
    | cons => rfl

theorem optional_nil {args : List Arg} (wa : WellFormedArgs args) (ha : ∀ a ∈ args, a.name = "") :
    collectOptional args = [] := by
  rw [List.eq_nil_iff_forall_not_mem]
  intro j hj
  obtain ⟨a, h1, h2⟩ := collectOptional_mem.1 hj
  exact wa a (List.mem_of_getElem? h1) h2 (ha a (List.mem_of_getElem? h1))

/-- The two ways `matchCall` reorders, in one. -/
theorem matchCall_cases {t : Types} {s : Sig} {args : List Arg} {numUsings : Nat} (hb : Builds s args)
    (h : matchCall t s args numUsings ≠ .fail) :
    args.length - (collectOptional args).length ≤ s.max ∧ s.min ≤ args.length + numUsings ∧
    ((collectNames args = [] ∧ matchCall t s args numUsings = matchArgs t s args (s.isType && args.isEmpty)
      (reorderByNumUsings s.params.length args.length (s.min - args.length))) ∨
     (collectNames args ≠ [] ∧
      ((∃ r, reorderByArgIDs (args.map (·.name)) (collectOptional args) s.params (s.min - args.length) = .ok r ∧
        matchCall t s args numUsings = matchArgs t s args (s.isType && args.isEmpty) r) ∨
       (reorderByArgIDs (args.map (·.name)) (collectOptional args) s.params (s.min - args.length) = .bug ∧
        matchCall t s args numUsings = .bug)))) := by
  have hz := builds_zero hb
  unfold matchCall at h ⊢
  simp only [hz, Bool.not_false, Bool.true_and, if_true] at h ⊢
  by_cases ha : (decide (s.max < args.length - (collectOptional args).length) ||
      decide (args.length + numUsings < s.min)) = true
  · rw [if_pos ha] at h; exact absurd rfl h
  · rw [if_neg ha] at h ⊢
    simp only [Bool.or_eq_true, decide_eq_true_eq, not_or, Nat.not_lt] at ha
    refine ⟨ha.1, ha.2, ?_⟩
    by_cases hn : collectNames args = []
    · rw [if_pos hn] at h ⊢
      exact .inl ⟨hn, rfl⟩
    · rw [if_neg hn] at h ⊢
      refine .inr ⟨hn, ?_⟩
      rw [someName hn] at h ⊢
      rcases hr : reorderByArgIDs (args.map (·.name)) (collectOptional args) s.params (s.min - args.length) with r | _ | _
      · exact .inl ⟨r, rfl, rfl⟩
      · rw [hr] at h; exact absurd rfl h
      · exact .inr ⟨rfl, rfl⟩

theorem call_binds {t : Types} {s : Sig} {args : List Arg} {numUsings : Nat} {out : List Slot}
    (wf : WellFormed s) (wa : WellFormedArgs args) (hb : Builds s args)
    (h : call t s args numUsings = .ok out) : out = slots s args ∧
    ∀ (i : Nat) (p : Param), s.params[i]? = some p →
      ∃ u, matchRes t args i p (expect (visible s) args (shortBy s args) i) = .ok u := by
  unfold call at h
  rcases hm : matchCall t s args numUsings with m | _ | _
  case fail => rw [hm] at h; cases h
  case bug => rw [hm] at h; cases h
  rw [hm] at h
  simp only at h
  obtain ⟨h1, h2, h3⟩ := matchCall_cases (t := t) (numUsings := numUsings) hb (by rw [hm]; simp)
  rcases h3 with ⟨hn, e⟩ | ⟨hn, ⟨r, hr, e⟩ | ⟨hr, e⟩⟩
  · rw [hm] at e
    have hnn := noNames hn
    rw [optional_nil wa hnn] at h1
    exact bind_core wf hb (agrees_positional wf hnn (by simpa using h1)) rfl e.symm h
  · rw [hm] at e
    exact bind_core wf hb (agrees_named hr) rfl e.symm h
  · rw [hm] at e; cases e

end Verif.CallArgs
