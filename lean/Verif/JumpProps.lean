import Verif.JumpSpec

/-!
# C94: the lookups find what is to be left
-/

set_option linter.unusedSimpArgs false

namespace Verif.JumpScope

open Verif.Scope

/-! ## The stack at a place -/

/-- All that is on the stack. -/
def hs : List Place → List H
  | [] => [{}, {}]
  | p :: o => hs o ++ p.hidden ++ p.own

/-- What of it is hidden. -/
def sk : List Place → List ScopeSkip
  | [] => []
  | p :: o => sk o ++ (if p.hidden = [] then [] else [⟨size o, (size o + p.hidden.length : Nat)⟩])

/-- The visible of one place, last first. -/
def revI (b : Nat) : List H → List (H × Int)
  | [] => []
  | x :: t => revI (b + 1) t ++ [(x, (b : Int))]

/-- The visible, last first. -/
def vis : List Place → List (H × Int)
  | [] => [({}, 1), ({}, 0)]
  | p :: o => revI (size o + p.hidden.length) p.own ++ vis o

theorem own_pos (p : Place) : 0 < p.own.length := by cases p <;> simp [Place.own]

theorem hs_length : ∀ ps, (hs ps).length = size ps
  | [] => rfl
  | p :: o => by simp [hs, size, hs_length o]; omega

theorem size_pos : ∀ ps, 2 ≤ size ps
  | [] => by simp [size]
  | p :: o => by have := size_pos o; simp only [size]; omega

theorem sk_mem : ∀ ps, ∀ s ∈ sk ps, 0 ≤ s.start ∧ s.start < s.stop ∧ s.stop < size ps
  | [], s, h => by simp [sk] at h
  | p :: o, s, h => by
    have hp := own_pos p
    simp only [sk, List.mem_append] at h
    rcases h with h | h
    · have := sk_mem o s h
      simp only [size]; omega
    · by_cases e : p.hidden = []
      · simp [e] at h
      · have : 0 < p.hidden.length := List.length_pos_iff.mpr e
        simp only [e, if_false, List.mem_singleton] at h
        subst h
        simp only [size]; omega

/-- The stack the solver builds. -/
theorem build_eq : ∀ ps, build ps = some ⟨hs ps, sk ps⟩
  | [] => rfl
  | p :: o => by
    simp only [build, build_eq o, Option.bind_some, hs_length]
    by_cases e : p.hidden = []
    · simp [ScopeSkip_push, e, hs, sk]
    · have hl : 0 < p.hidden.length := List.length_pos_iff.mpr e
      have hlast : ((sk o).getLast?.getD ⟨0, 0⟩).stop < (size o : Int) := by
        have hz := size_pos o
        cases hg : (sk o).getLast? with
        | none => simp only [Option.getD_none]; omega
        | some s =>
          have := sk_mem o s (List.mem_of_getLast? hg)
          simp only [Option.getD_some]; omega
      simp only [ScopeSkip_push]
      rw [if_neg (by omega), if_neg (by omega), if_neg (by omega), if_neg (by omega)]
      simp [hs, sk, e]

theorem reveach_step {α : Type} (items : List α) (rev : List ScopeSkip) (i : Nat) (x : α)
    (hx : items[i]? = some x) (hr : ∀ s ∈ rev, s.stop ≤ i) :
    reveachFrom items rev (i + 1) = (reveachFrom items rev i).map fun r => (x, (i : Int)) :: r := by
  cases rev with
  | nil => rw [reveachFrom]; simp only [hx, Option.bind_some]; cases reveachFrom items [] i <;> rfl
  | cons s rest =>
    have := hr s (by simp)
    rw [reveachFrom]
    rw [if_neg (by omega)]
    simp only [hx, Option.bind_some]
    cases reveachFrom items (s :: rest) i <;> rfl

theorem reveach_jump {α : Type} (items : List α) (n h : Nat) (rest : List ScopeSkip) (hh : 0 < h) :
    reveachFrom items (⟨n, (n + h : Nat)⟩ :: rest) (n + h) = reveachFrom items rest n := by
  obtain ⟨k, rfl⟩ : ∃ k, h = k + 1 := ⟨h - 1, by omega⟩
  rw [← Nat.add_assoc, reveachFrom]
  rw [if_pos (by simp only; omega)]
  simp

theorem reveach_prefix {α : Type} (items x : List α) : ∀ (rev : List ScopeSkip) (i : Nat), i ≤ items.length →
    (∀ s ∈ rev, s.start ≤ items.length) →
    reveachFrom (items ++ x) rev i = reveachFrom items rev i := by
  intro rev
  induction rev with
  | nil =>
    intro i
    induction i with
    | zero => intro _ _; simp [reveachFrom]
    | succ i ih =>
      intro hi hs
      rw [reveachFrom, reveachFrom, ih (by omega) hs, List.getElem?_append_left (by omega)]
  | cons s rest ihr =>
    intro i
    induction i with
    | zero => intro _ _; simp [reveachFrom]
    | succ i ih =>
      intro hi hs
      rw [reveachFrom, reveachFrom, ih (by omega) hs, List.getElem?_append_left (by omega),
        ihr s.start.toNat (by have := hs s (by simp); omega) (fun t ht => hs t (by simp [ht]))]

theorem reveach_own (items : List H) (rev : List ScopeSkip) : ∀ (l : List H) (n : Nat),
    (∀ j, j < l.length → items[n + j]? = l[j]?) → (∀ s ∈ rev, s.stop ≤ n) →
    reveachFrom items rev (n + l.length) = (reveachFrom items rev n).map (revI n l ++ ·)
  | [], n, _, _ => by
    simp only [List.length_nil, Nat.add_zero, revI, List.nil_append]
    cases reveachFrom items rev n <;> rfl
  | x :: t, n, h, hr => by
    have ih := reveach_own items rev t (n + 1)
      (fun j hj => by
        have := h (j + 1) (by simp; omega)
        rw [show n + 1 + j = n + (j + 1) by omega, this]; rfl)
      (fun s hs => by have := hr s hs; omega)
    have h0 := h 0 (by simp)
    rw [show n + (x :: t).length = n + 1 + t.length by simp; omega, ih,
      reveach_step items rev n x (by simpa using h0) hr]
    cases reveachFrom items rev n <;> simp [revI]

/-- What the lookups go through. -/
theorem visible : ∀ ps, reveach (hs ps) (sk ps) = some (vis ps)
  | [] => by simp [reveach, hs, sk, vis, reveachFrom]
  | p :: o => by
    have ih := visible o
    have hown : ∀ rev : List ScopeSkip, (∀ s ∈ rev, s.stop ≤ (size o + p.hidden.length : Nat)) →
        reveachFrom (hs (p :: o)) rev (size (p :: o)) =
          (reveachFrom (hs (p :: o)) rev (size o + p.hidden.length)).map
            (revI (size o + p.hidden.length) p.own ++ ·) := by
      intro rev hr
      have := reveach_own (hs (p :: o)) rev p.own (size o + p.hidden.length)
        (fun j hj => by
          simp only [hs]
          rw [List.getElem?_append_right (by simp [hs_length])]
          congr 1
          simp [hs_length])
        hr
      exact this
    have hpre : reveachFrom (hs (p :: o)) (sk o).reverse (size o) = some (vis o) := by
      rw [hs, List.append_assoc, reveach_prefix _ _ _ _ (by simp [hs_length])
        (fun s hs' => by have := sk_mem o s (by simpa using hs'); simp only [hs_length]; omega)]
      simpa [reveach, hs_length] using ih
    simp only [reveach, hs_length]
    rw [hown _ (fun s hs' => by
      have h := List.mem_reverse.mp hs'
      simp only [sk, List.mem_append] at h
      rcases h with h | h
      · have := sk_mem o s h; omega
      · by_cases e : p.hidden = []
        · simp [e] at h
        · simp only [e, if_false, List.mem_singleton] at h
          subst h; simp)]
    by_cases e : p.hidden = []
    · simp only [sk, e, if_true, List.append_nil, List.length_nil, Nat.add_zero, hpre, vis]
      rfl
    · have hl : 0 < p.hidden.length := List.length_pos_iff.mpr e
      simp only [sk, e, if_false, List.reverse_append, List.reverse_cons, List.reverse_nil, List.nil_append,
        List.cons_append]
      rw [reveach_jump _ _ _ _ hl, hpre]
      rfl

/-! ## `return` -/

theorem goReturn_own (id : Str) (ok : Bool) (p : Place) (b : Nat) (r : List (H × Int))
    (h : ∀ x ∈ p.own, x.canReturn = false) : goReturn id ok (revI b p.own ++ r) = goReturn id ok r := by
  cases p <;> simp [Place.own, revI, goReturn, loopH] at h ⊢

theorem goReturn_ret : ∀ ps, goReturn [] false (vis ps) = (ret ps).map fun t => (t.pos : Int)
  | [] => by simp [vis, goReturn, ret]
  | p :: o => by
    have ih := goReturn_ret o
    cases p <;> simp [vis, Place.own, revI, goReturn, loopH, ret, ih, Target.pos, Place.hidden]

theorem goReturn_last : ∀ ps, goReturn [] true (vis ps) = (retLast ps).map fun t => (t.pos : Int)
  | [] => by simp [vis, goReturn, retLast]
  | p :: o => by
    have ih := goReturn_last o
    cases p <;> simp [vis, Place.own, revI, goReturn, loopH, retLast, ih, Target.pos, Place.hidden]

theorem goReturn_to (l : Str) (hl : l ≠ []) :
    ∀ ps, goReturn l false (vis ps) = (retTo l ps).map fun t => (t.pos : Int)
  | [] => by simp [vis, goReturn, retTo]
  | p :: o => by
    have ih := goReturn_to l hl o
    cases p with
    | fn id h =>
      by_cases e : id = l <;>
        simp [vis, Place.own, revI, goReturn, retTo, ih, Target.pos, Place.hidden, e, hl]
    | _ => simp [vis, Place.own, revI, goReturn, loopH, retTo, ih]

/-- C94: `return` leaves the innermost function that is not a lambda, whatever is around it; where there is
none it is an error. -/
theorem return_leaves (ps : List Place) :
    ∃ s, build ps = some s ∧ lookupReturn s [] false = (ret ps).map fun t => (t.pos : Int) :=
  ⟨_, build_eq ps, by simp only [lookupReturn, visible, Option.bind_some]; exact goReturn_ret ps⟩

/-- C94: what a body ends in is the value of the innermost function or lambda. -/
theorem last_leaves (ps : List Place) :
    ∃ s, build ps = some s ∧ lookupReturn s [] true = (retLast ps).map fun t => (t.pos : Int) :=
  ⟨_, build_eq ps, by simp only [lookupReturn, visible, Option.bind_some]; exact goReturn_last ps⟩

/-- C94: `return :F` leaves the innermost function of that name. -/
theorem return_to_leaves (ps : List Place) (l : Str) (hl : l ≠ []) :
    ∃ s, build ps = some s ∧ lookupReturn s l false = (retTo l ps).map fun t => (t.pos : Int) :=
  ⟨_, build_eq ps, by simp only [lookupReturn, visible, Option.bind_some]; exact goReturn_to l hl ps⟩

/-! ## `break` -/

theorem goLabel_below (s : St) (id : Str) (c : Bool) (b : Int) (hb : b ≠ 0) (x : H) (i : Int) (r : List (H × Int)) :
    goLabel s id c b ((x, i) :: r) = some (if i < b - 1 then i + 1 else i) := by
  simp only [goLabel, hb, if_false]
  cases x.canBreak <;> simp

/-- The last that is visible. -/
theorem vis_head (ps : List Place) : ∃ x r, vis ps = (x, ((size ps - 1 : Nat) : Int)) :: r := by
  cases ps with
  | nil => exact ⟨_, _, rfl⟩
  | cons p o =>
    cases p <;> simp [vis, Place.own, revI, size, Place.hidden] <;> omega

theorem goLabel_break (s : St) : ∀ ps, (∀ p ∈ ps, passed p) →
    goLabel s [] false 0 (vis ps) = (brk ps).map fun t => (t.pos : Int)
  | [], _ => by simp [vis, goLabel, brk]
  | p :: o, hp => by
    have ih := goLabel_break s o (fun q hq => hp q (by simp [hq]))
    have hpp := hp p (by simp)
    have hz := size_pos o
    have hneg : ∀ n : Nat, ¬ ((n : Int) < -1) := fun n => by omega
    have hneg2 : ∀ n : Nat, ¬ ((n : Int) + 1 < -1) := fun n => by omega
    have hneg3 : ∀ n : Nat, ¬ ((n : Int) + 1 + 1 < -1) := fun n => by omega
    cases p with
    | lambda id h =>
      have hl : 0 < h.length := List.length_pos_iff.mpr hpp
      obtain ⟨x, r, hv⟩ := vis_head o
      simp only [vis, Place.own, revI, List.nil_append, List.singleton_append, Place.hidden, hv]
      rw [goLabel]
      have hn : ((size o + h.length : Nat) : Int) ≠ 0 := by omega
      simp only [show (0 : Int) - 1 = -1 from rfl, hneg, if_false]
      simp only [Bool.not_false, if_true, ne_eq, not_true_eq_false, Bool.not_true, decide_false,
        Bool.or_self, Bool.false_eq_true, if_false]
      rw [goLabel_below _ _ _ _ hn, if_pos (by omega)]
      simp only [brk, Target.pos, Option.map_some]
      congr 1; omega
    | _ => simp [vis, Place.own, revI, goLabel, loopH, brk, ih, Target.pos, Place.hidden, hneg, hneg2, hneg3]

theorem goLabel_breakTo (s : St) (l : Str) (hl : l ≠ []) : ∀ ps,
    goLabel s l false 0 (vis ps) = (brkTo l ps).map fun t => (t.pos : Int)
  | [] => by simp [vis, goLabel, brkTo, hl]
  | p :: o => by
    have ih := goLabel_breakTo s l hl o
    have hneg : ∀ n : Nat, ¬ ((n : Int) < -1) := fun n => by omega
    have hneg2 : ∀ n : Nat, ¬ ((n : Int) + 1 < -1) := fun n => by omega
    have hneg3 : ∀ n : Nat, ¬ ((n : Int) + 1 + 1 < -1) := fun n => by omega
    cases p with
    | fn _ _ => simp [vis, Place.own, revI, goLabel, brkTo, Place.label, ih, hl, hneg, hneg2, hneg3]
    | lambda _ _ => simp [vis, Place.own, revI, goLabel, brkTo, Place.label, ih, hl, hneg, hneg2, hneg3]
    | block id | head id | body id _ | step id | enter id _ | thn id _ _ | stepOn id _ | headOn id _ =>
      by_cases e : id = l <;>
        simp [vis, Place.own, revI, goLabel, loopH, brkTo, Place.label, ih, Target.pos, Place.hidden, hneg, hneg2, hneg3, hl, e,
          Ne.symm hl]

/-- C94: `break` leaves the innermost loop, or the function that the lambda it is in is passed to;
an error where there is neither. -/
theorem break_leaves (ps : List Place) (hp : ∀ p ∈ ps, passed p) :
    ∃ s, build ps = some s ∧ lookupLabel s [] false = (brk ps).map fun t => (t.pos : Int) :=
  ⟨_, build_eq ps, by simp only [lookupLabel, visible, Option.bind_some]; exact goLabel_break _ ps hp⟩

/-- C94: `break :L` leaves the innermost block or loop of that label, whatever else is around; an error where
there is none. -/
theorem break_to_leaves (ps : List Place) (l : Str) (hl : l ≠ []) :
    ∃ s, build ps = some s ∧ lookupLabel s l false = (brkTo l ps).map fun t => (t.pos : Int) :=
  ⟨_, build_eq ps, by simp only [lookupLabel, visible, Option.bind_some]; exact goLabel_breakTo _ l hl ps⟩

/-! ## `continue` -/

theorem skipTo_id : ∀ (l : List ScopeSkip) (i : Int), (∀ s ∈ l, s.start ≠ i) → skipTo l i = i
  | [], _, _ => rfl
  | s :: r, i, h => by
    have hs := h s (by simp)
    have ih := skipTo_id r i (fun t ht => h t (by simp [ht]))
    rw [skipTo, if_neg (fun e => hs e.symm), ih]
    split <;> rfl

theorem skipTo_past : ∀ (a b : List ScopeSkip) (i : Int), (∀ s ∈ a, s.start < i) → skipTo (a ++ b) i = skipTo b i
  | [], _, _, _ => rfl
  | s :: r, b, i, h => by
    have hs := h s (by simp)
    rw [List.cons_append, skipTo, if_neg (by omega), if_neg (by omega)]
    exact skipTo_past r b i (fun t ht => h t (by simp [ht]))

theorem sk_split (o : List Place) : ∀ inner : List Place,
    ∃ rest, sk (inner ++ o) = sk o ++ rest ∧ (∀ s ∈ rest, (size o : Int) ≤ s.start) ∧ size o ≤ size (inner ++ o)
  | [] => ⟨[], by simp, by simp, by simp⟩
  | p :: r => by
    obtain ⟨rest, h1, h2, h3⟩ := sk_split o r
    refine ⟨rest ++ (if p.hidden = [] then [] else [⟨size (r ++ o), (size (r ++ o) + p.hidden.length : Nat)⟩]), ?_, ?_, ?_⟩
    · simp [sk, h1]
    · intro s hs
      rcases List.mem_append.mp hs with hs | hs
      · exact h2 s hs
      · by_cases e : p.hidden = []
        · simp [e] at hs
        · simp only [e, if_false, List.mem_singleton] at hs
          subst hs; simp only; omega
    · simp only [List.cons_append, size]; omega

/-- The place just after the loop's own. -/
theorem skipTo_inner (p : Place) (o inner : List Place) (hh : p.hidden = []) (hl : 2 ≤ p.own.length) :
    skipTo (sk (inner ++ p :: o)) (size o + 1) = size o + 1 ∧ ((size o : Int) + 1 < (size (inner ++ p :: o) : Nat)) := by
  obtain ⟨rest, h1, h2, h3⟩ := sk_split (p :: o) inner
  constructor
  · apply skipTo_id
    intro s hs
    rw [h1] at hs
    rcases List.mem_append.mp hs with hs | hs
    · simp only [sk, hh, if_true, List.append_nil] at hs
      have := sk_mem o s hs; omega
    · have := h2 s hs
      simp only [size] at this; omega
  · simp only [size] at h3; omega

/-- The place that is first in a block. -/
theorem skipTo_first (q : Place) (o inner : List Place) :
    skipTo (sk (inner ++ q :: o)) (size o) = ((size o + q.hidden.length : Nat) : Int)
      ∧ (((size o + q.hidden.length : Nat) : Int) < (size (inner ++ q :: o) : Nat)) := by
  have hq := own_pos q
  obtain ⟨rest, h1, h2, h3⟩ := sk_split (q :: o) inner
  constructor
  · rw [h1, sk, List.append_assoc,
      skipTo_past _ _ _ (fun s hs => by have := sk_mem o s hs; omega)]
    by_cases e : q.hidden = []
    · simp only [e, if_true, List.nil_append, List.length_nil, Nat.add_zero]
      apply skipTo_id
      intro s hs
      have := h2 s hs
      simp only [size] at this; omega
    · simp only [e, if_false, List.cons_append, List.nil_append]
      rw [skipTo, if_pos rfl]
      apply skipTo_id
      intro s hs
      have := h2 s hs
      simp only [size] at this
      simp only; omega
  · simp only [size] at h3; omega

/-- Of a loop that has no `on enter` block, or in that block. -/
def plain : Place → Prop
  | .thn _ _ _ | .stepOn _ _ | .headOn _ _ => False
  | _ => True

theorem goLabel_cont (inner : List Place) : ∀ ps, (∀ p ∈ ps, plain p) → ∀ (pre : List Place) (t : Target),
    cont ps = some t → pre ++ ps = inner →
    goLabel ⟨hs inner, sk inner⟩ [] true 0 (vis ps) = some (t.pos : Int)
  | [], _, _, _, ht, _ => by simp [cont] at ht
  | p :: o, hp, pre, t, ht, he => by
    have ih := goLabel_cont inner o (fun q hq => hp q (by simp [hq])) (pre ++ [p]) t
    have hpp := hp p (by simp)
    have hkk := skipTo_inner p o pre
    rw [he] at hkk
    have hneg : ∀ n : Nat, ¬ ((n : Int) < -1) := fun n => by omega
    cases p with
    | block id =>
      have := ih (by simpa [cont] using ht) (by simp [he])
      simp [vis, Place.own, revI, goLabel, this, Place.hidden]
    | fn id h =>
      have := ih (by simpa [cont] using ht) (by simp [he])
      simp [vis, Place.own, revI, goLabel, this, Place.hidden]
    | lambda id h =>
      simp only [cont, Option.some.injEq] at ht
      subst ht
      simp [vis, Place.own, revI, goLabel, Place.hidden, Target.pos]; omega
    | head id => simp [cont] at ht
    | thn id e b => simp [plain] at hpp
    | stepOn id e => simp [plain] at hpp
    | headOn id e => simp [plain] at hpp
    | body id b | step id | enter id b =>
      simp only [cont, Option.some.injEq] at ht
      subst ht
      have hk := (hkk rfl (by simp [Place.own])).1
      have hk2 := (hkk rfl (by simp [Place.own])).2
      simp [vis, Place.own, revI, goLabel, loopH, Place.hidden, Target.pos, hneg, hk, hs_length, hk2]

theorem goLabel_contTo (l : Str) (hl : l ≠ []) (inner : List Place) : ∀ ps, (∀ p ∈ ps, plain p) →
    ∀ (pre : List Place), pre ++ ps = inner →
    goLabel ⟨hs inner, sk inner⟩ l true 0 (vis ps) =
      (contTo l (pre.getLast?.map (Place.all ps)) ps).map fun t => (t.pos : Int)
  | [], _, _, _ => by simp [vis, goLabel, contTo, hl]
  | p :: o, hp, pre, he => by
    have ih := goLabel_contTo l hl inner o (fun q hq => hp q (by simp [hq])) (pre ++ [p]) (by simp [he])
    have hpp := hp p (by simp)
    have hkk := skipTo_inner p o pre
    rw [he] at hkk
    have hneg : ∀ n : Nat, ¬ ((n : Int) < -1) := fun n => by omega
    simp only [List.getLast?_concat, Option.map_some] at ih
    have hfirst : p.hidden = [] → p.own.length = 1 →
        (let i := skipTo (sk inner) (size o + 1);
         if i < ((size inner : Nat) : Int) then some i else none)
        = (pre.getLast?.map (Place.all (p :: o))).map fun t => (t.pos : Int) := by
      intro h1 h2
      have hsz : size (p :: o) = size o + 1 := by simp [size, h1, h2]
      rcases List.eq_nil_or_concat pre with hpre | ⟨pre', q, hpre⟩
      · subst hpre
        subst he
        simp only [List.nil_append, List.getLast?_nil, Option.map_none]
        have : skipTo (sk (p :: o)) (size o + 1) = size o + 1 := by
          apply skipTo_id
          intro s hs
          have := sk_mem _ s hs
          rw [hsz] at this; omega
        simp only [this, hsz]
        rw [if_neg (by omega)]
      · subst hpre
        simp only [List.concat_eq_append, List.append_assoc, List.singleton_append] at he
        have hk := skipTo_first q (p :: o) pre'
        rw [he, hsz] at hk
        simp only [List.concat_eq_append, List.getLast?_concat, Option.map_some]
        have h3 := hk.1
        simp only [Int.natCast_add, Int.cast_ofNat_Int] at h3
        rw [h3]
        have h4 := hk.2
        simp only [Int.natCast_add, Int.cast_ofNat_Int] at h4
        simp only [h4, if_true]
        cases q <;> simp [Place.all, Target.pos, Place.hidden, hsz]
    cases p with
    | fn id h => simpa [vis, Place.own, revI, goLabel, Place.hidden, contTo, Place.label, hl] using ih
    | lambda id h => simpa [vis, Place.own, revI, goLabel, Place.hidden, contTo, Place.label, hl] using ih
    | thn id e b => simp [plain] at hpp
    | stepOn id e => simp [plain] at hpp
    | headOn id e => simp [plain] at hpp
    | block id | head id =>
      by_cases e : id = l
      · have := hfirst rfl rfl
        simp only [← hs_length inner] at this
        simpa [vis, Place.own, revI, goLabel, loopH, Place.hidden, contTo, Place.label, hl, e, hneg] using this
      · simpa [vis, Place.own, revI, goLabel, loopH, Place.hidden, contTo, Place.label, hl, e] using ih
    | body id b | step id | enter id b =>
      by_cases e : id = l
      · have hk := (hkk rfl (by simp [Place.own])).1
        have hk2 := (hkk rfl (by simp [Place.own])).2
        simp [vis, Place.own, revI, goLabel, loopH, Place.hidden, Target.pos, hneg, hk, hs_length, hk2, contTo,
          Place.label, hl, e, Ne.symm hl]
      · simpa [vis, Place.own, revI, goLabel, loopH, Place.hidden, contTo, Place.label, hl, e, Ne.symm hl] using ih

/-- C94: `continue` leaves the body of the innermost loop, or the lambda, if the loops have no `on enter`
blocks.  Partial: with one, it leaves that block (`continue_enter_bug`). -/
theorem continue_leaves_partial (ps : List Place) (hp : ∀ p ∈ ps, plain p) (t : Target) (ht : cont ps = some t) :
    ∃ s, build ps = some s ∧ lookupLabel s [] true = some (t.pos : Int) :=
  ⟨_, build_eq ps, by
    simp only [lookupLabel, visible, Option.bind_some]; exact goLabel_cont ps ps hp [] t ht rfl⟩

/-- C94: `continue :L` leaves the body of the innermost loop `L`, or what is immediately in the block `L`;
an error where there is none, or where nothing is. -/
theorem continue_to_leaves_partial (ps : List Place) (hp : ∀ p ∈ ps, plain p) (l : Str) (hl : l ≠ []) :
    ∃ s, build ps = some s ∧ lookupLabel s l true = (contTo l none ps).map fun t => (t.pos : Int) :=
  ⟨_, build_eq ps, by
    simp only [lookupLabel, visible, Option.bind_some]; exact goLabel_contTo l hl ps ps hp [] rfl⟩

/-- Neither a loop nor a lambda. -/
def loopless : Place → Prop
  | .block _ | .fn _ _ => True
  | _ => False

theorem goLabel_none (s : St) (c : Bool) : ∀ ps, (∀ p ∈ ps, loopless p) → goLabel s [] c 0 (vis ps) = none
  | [], _ => by simp [vis, goLabel]
  | p :: o, hp => by
    have ih := goLabel_none s c o (fun q hq => hp q (by simp [hq]))
    have hpp := hp p (by simp)
    cases p with
    | block id => simp [vis, Place.own, revI, goLabel, ih]
    | fn id h => simp [vis, Place.own, revI, goLabel, ih]
    | _ => simp [loopless] at hpp

/-- C94: with neither a loop nor a lambda around them `break` and `continue` are errors. -/
theorem nothing_to_leave (ps : List Place) (c : Bool) (hp : ∀ p ∈ ps, loopless p) :
    ∃ s, build ps = some s ∧ lookupLabel s [] c = none :=
  ⟨_, build_eq ps, by simp only [lookupLabel, visible, Option.bind_some]; exact goLabel_none _ c ps hp⟩

/-! ## Where it goes wrong -/

/-- C94: in the body of a loop that has an `on enter` block, `continue` leaves that block, which the whole
loop is emitted in, and not the body. -/
theorem continue_enter_bug (id eid bid : Str) (outer : List Place) :
    cont (.thn id eid bid :: outer) = some (.thenBody outer)
    ∧ ∃ s, build (.thn id eid bid :: outer) = some s ∧ lookupLabel s [] true = some ((size outer + 1 : Nat) : Int)
      ∧ (size outer + 1 : Nat) ≠ (Target.thenBody outer).pos := by
  refine ⟨rfl, _, build_eq _, ?_, by simp [Target.pos]⟩
  have hneg : ∀ n : Nat, ¬ ((n : Int) < -1) := fun n => by omega
  have hk := skipTo_inner (.thn id eid bid) outer [] rfl (by simp [Place.own])
  simp only [List.nil_append] at hk
  simp [lookupLabel, visible, vis, Place.own, revI, goLabel, loopH, Place.hidden, hneg, hk.1, hs_length, hk.2]

/-- C94: a label of the body of a loop (`while (x) :L { … break :L; … }`) is not found. -/
theorem body_label_bug (id l : Str) (outer : List Place) (hl : l ≠ []) (hid : id ≠ l) (hp : ∀ p ∈ outer, p.label ≠ some l) :
    ∃ s, build (.body id l :: outer) = some s ∧ lookupLabel s l false = none := by
  obtain ⟨s, h1, h2⟩ := break_to_leaves (.body id l :: outer) l hl
  refine ⟨s, h1, ?_⟩
  rw [h2]
  have : ∀ ps : List Place, (∀ p ∈ ps, p.label ≠ some l) → brkTo l ps = none := by
    intro ps
    induction ps with
    | nil => intro _; rfl
    | cons p o ih => intro h; rw [brkTo, if_neg (h p (by simp)), ih (fun q hq => h q (by simp [hq]))]
  rw [this _ (fun p h => by
    rcases List.mem_cons.mp h with h | h
    · subst h; simpa [Place.label] using hid
    · exact hp p h)]
  rfl

/-! ## Cases -/

/-- `fn f() { for (…) { :L xs.each: |x| { { … } } } }`, in the innermost block. -/
def exPlaces : List Place :=
  [.block [], .lambda [] [{ canReturn := true, id := [101] }, {}], .block [76], .body [] [], .fn [102] [{}]]

example : (∀ p ∈ exPlaces, passed p) ∧ (∀ p ∈ exPlaces, plain p) := by
  simp [exPlaces, passed, plain]

example : (brk exPlaces).map Target.pos = some 7 ∧ (brkTo [76] exPlaces).map Target.pos = some 6
    ∧ (cont exPlaces).map Target.pos = some 9 ∧ (contTo [76] none exPlaces).map Target.pos = some 9
    ∧ (ret exPlaces).map Target.pos = some 3 ∧ (retTo [102] exPlaces).map Target.pos = some 3
    ∧ (retLast exPlaces).map Target.pos = some 9 := by
  simp [exPlaces, brk, brkTo, cont, contTo, ret, retTo, retLast, Target.pos, size, Place.own, Place.hidden, Place.label,
    Place.all]

example : loopless (.block [76]) ∧ loopless (.fn [102] []) := by simp [loopless]

end Verif.JumpScope
