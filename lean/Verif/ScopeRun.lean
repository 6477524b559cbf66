import Verif.ScopeSearch
/-! # Scopes: histories (C63) -/
namespace Verif.Scope
open Verif

/-! ### the specification in terms of positions -/

theorem ans_eq (items : List Item) (skips : List ScopeSkip) (id : Str) : ∀ p ≤ items.length, ans items skips id p =
    ((((items.take p).zipIdx.filter fun (x, i) => visible skips i && decide (x.id = id)).map fun (x, _) => (target x, shadows x)).reverse) := by
  intro p
  induction p with
  | zero => intro _; rfl
  | succ k ih =>
    intro h
    rw [ans, List.getElem?_eq_getElem (by omega), List.take_succ_eq_append_getElem (by omega), List.zipIdx_append,
      List.filter_append, List.map_append, List.reverse_append, ← ih (by omega)]
    simp only [List.length_take, Nat.min_eq_left (show k ≤ items.length by omega), List.zipIdx_cons, List.zipIdx_nil, Nat.zero_add]
    by_cases hc : visible skips k = true ∧ items[k].id = id
    · rw [if_pos hc, List.filter_cons_of_pos (by simp [hc.1, hc.2])]
      rfl
    · rw [if_neg hc, List.filter_cons_of_neg (by simpa using hc)]
      rfl

theorem fans_eq (field : List Item) (id : Str) : ∀ p ≤ field.length, fans field id p =
    (((field.take p).filter fun x => decide (x.id = id)).map fun x => (target x, false)).reverse := by
  intro p
  induction p with
  | zero => intro _; rfl
  | succ k ih =>
    intro h
    rw [fans, List.getElem?_eq_getElem (by omega), List.take_succ_eq_append_getElem (by omega), List.filter_append, List.map_append,
      List.reverse_append, ← ih (by omega)]
    by_cases hc : field[k].id = id
    · simp only
      rw [if_pos hc, List.filter_cons_of_pos (by simp [hc])]
      rfl
    · simp only
      rw [if_neg hc, List.filter_cons_of_neg (by simpa using hc)]
      rfl

theorem answers_eq (items : List Item) (skips : List ScopeSkip) (id : Str) (field : List Item) (extra : List (BitVec 64)) :
    answers items skips id field extra = ans items skips id items.length ++ (fans field id field.length ++ eans extra extra.length) := by
  rw [ans_eq _ _ _ _ (Nat.le_refl _), fans_eq _ _ _ (Nat.le_refl _), List.take_length, List.take_length]
  unfold answers eans
  rw [List.take_length, List.append_assoc]

/-! ### pushing skips -/

theorem vis_cast (skips : List ScopeSkip) (n : Nat) (hw : WF skips n) (i : Nat) (h : n ≤ i) : visible skips i = true := by
  rw [vis_iff]
  intro s hs
  have := (hw.2 s hs).2.2
  omega

/-- entering a function hides what was declared since -/
theorem push_spec {sk : List ScopeSkip} {l n : Nat} (hw : WF sk l) (hl : l ≤ n) :
    ∃ sk', ScopeSkip_push sk l n = some sk' ∧ WF sk' n ∧ ∀ i, visible sk' i = true ↔ (visible sk i = true ∧ ¬ (l ≤ i ∧ i < n)) := by
  unfold ScopeSkip_push
  rw [if_neg (by omega)]
  by_cases he : (n : Int) = l
  · rw [if_pos he]
    refine ⟨sk, rfl, hw.mono hl, fun i => ?_⟩
    have : n = l := by omega
    constructor
    · intro h; exact ⟨h, by omega⟩
    · intro h; exact h.1
  · rw [if_neg he]
    have hlast : (sk.getLast?.getD ⟨0, 0⟩).stop ≤ (l : Int) := by
      cases h : sk.getLast? with
      | none => simp
      | some x =>
        have hx : x ∈ sk := List.mem_of_getLast? h
        have := (hw.2 x hx).2.2
        simpa using this
    simp only
    rw [if_neg (by omega)]
    by_cases hm : sk ≠ [] ∧ (sk.getLast?.getD ⟨0, 0⟩).stop = l
    · rw [if_pos hm]
      obtain ⟨pre, x, hx⟩ : ∃ pre x, sk = pre ++ [x] := ⟨sk.dropLast, sk.getLast hm.1, (List.dropLast_concat_getLast hm.1).symm⟩
      subst hx
      simp only [List.getLast?_concat, Option.getD_some, List.dropLast_concat] at hm ⊢
      have hxb := hw.2 x (by simp)
      have hpw := List.pairwise_append.1 hw.1
      refine ⟨_, rfl, ⟨?_, ?_⟩, ?_⟩
      · refine List.pairwise_append.2 ⟨hpw.1, List.pairwise_singleton _ _, fun a ha b hb => ?_⟩
        rw [List.mem_singleton.1 hb]
        exact hpw.2.2 a ha x (by simp)
      · intro s hs
        rcases List.mem_append.1 hs with hs | hs
        · have := hw.2 s (by simp [hs]); exact ⟨this.1, this.2.1, by omega⟩
        · rw [List.mem_singleton.1 hs]; exact ⟨hxb.1, by show x.start < (n : Int); omega, by show (n : Int) ≤ n; omega⟩
      · intro i
        rw [vis_iff, vis_iff]
        constructor
        · intro h
          refine ⟨fun s hs => ?_, ?_⟩
          · rcases List.mem_append.1 hs with hs | hs
            · exact h s (by simp [hs])
            · rw [List.mem_singleton.1 hs]
              have : ¬ (x.start ≤ i ∧ (i : Int) < n) := h _ (List.mem_append_right _ (List.mem_singleton_self _))
              omega
          · have : ¬ (x.start ≤ i ∧ (i : Int) < n) := h _ (List.mem_append_right _ (List.mem_singleton_self _))
            omega
        · rintro ⟨h, h2⟩ s hs
          rcases List.mem_append.1 hs with hs | hs
          · exact h s (by simp [hs])
          · rw [List.mem_singleton.1 hs]
            have := h x (by simp)
            show ¬ (x.start ≤ i ∧ (i : Int) < n)
            omega
    · rw [if_neg hm]
      refine ⟨_, rfl, ⟨?_, ?_⟩, ?_⟩
      · refine List.pairwise_append.2 ⟨hw.1, List.pairwise_singleton _ _, fun a ha b hb => ?_⟩
        rw [List.mem_singleton.1 hb]
        exact (hw.2 a ha).2.2
      · intro s hs
        rcases List.mem_append.1 hs with hs | hs
        · exact (hw.mono hl).2 s hs
        · rw [List.mem_singleton.1 hs]; exact ⟨by show (0 : Int) ≤ l; omega, by show (l : Int) < n; omega, by show (n : Int) ≤ n; omega⟩
      · intro i
        rw [vis_iff, vis_iff]
        constructor
        · intro h
          refine ⟨fun s hs => h s (List.mem_append_left _ hs), ?_⟩
          have : ¬ ((l : Int) ≤ i ∧ (i : Int) < n) := h _ (List.mem_append_right _ (List.mem_singleton_self _))
          omega
        · rintro ⟨h, h2⟩ s hs
          rcases List.mem_append.1 hs with hs | hs
          · exact h s hs
          · rw [List.mem_singleton.1 hs]
            show ¬ ((l : Int) ≤ i ∧ (i : Int) < n)
            omega

/-! ### the invariant -/

/-- a lookup has found a beginning of its answers, and the iterator stands at the rest -/
def IterOK (items : List Item) (skips : List ScopeSkip) (i : Iter) : Prop :=
  i.field.length ≤ maxItems ∧ i.extra.length ≤ maxItems ∧
  (if i.finished then i.results = i.expected
   else i.it ≠ 0 ∧ ∃ r, i.expected = i.results ++ r ∧ Rem items skips i.id i.field i.extra i.it r)

structure FrameOK (views : Nat → List ScopeSkip) (items : List Item) (f : Frame) : Prop where
  len0 : f.len0 ≤ items.length
  wf : WF f.skips f.len0
  coh : Coh views f.skips items.length
  memos : ∀ m, some m ∈ f.memos → m.len ≤ items.length ∧ WF m.skips m.len ∧ Coh views m.skips m.len
  root : ∀ r, f.root = some r → r ≤ items.length ∧ ∀ j < r, ∀ i < j, visible (views j) i = true
  noroot : f.root = none → f.skips = [] ∧ ∀ j < items.length, ∀ i < j, visible (views j) i = true
  iters : ∀ i ∈ f.iters, IterOK items f.skips i

/-- the activations, each with the items it will be left with -/
def Chain (views : Nat → List ScopeSkip) : List Item → Frame → List Frame → Prop
  | items, top, [] => FrameOK views items top
  | items, top, f :: rest => FrameOK views items top ∧ Chain views (items.take top.len0) f rest

def Inv (s : State) : Prop :=
  ∃ views, s.items.length ≤ maxItems ∧ Sound views s.items ∧ Chain views s.items s.top s.stack

theorem Chain.top {views : Nat → List ScopeSkip} {items : List Item} {top : Frame} {stack : List Frame} (h : Chain views items top stack) :
    FrameOK views items top := by
  cases stack with
  | nil => exact h
  | cons f rest => exact h.1

/-- replacing only the topmost activation -/
theorem Chain.replace {views : Nat → List ScopeSkip} {items items' : List Item} {top top' : Frame} {stack : List Frame} (h : Chain views items top stack)
    (ht : FrameOK views items' top') (hi : items'.take top'.len0 = items.take top.len0) : Chain views items' top' stack := by
  cases stack with
  | nil => exact ht
  | cons f rest => exact ⟨ht, by rw [hi]; exact h.2⟩

theorem FrameOK.congr {views : Nat → List ScopeSkip} {a b : List Item} {f : Frame} (h : a.map skel = b.map skel) (hf : FrameOK views a f) :
    FrameOK views b f := by
  have hl : a.length = b.length := by simpa using congrArg List.length h
  refine ⟨hl ▸ hf.len0, hf.wf, hl ▸ hf.coh, hl ▸ hf.memos, hl ▸ hf.root, hl ▸ hf.noroot, fun i hi => ?_⟩
  obtain ⟨h1, h2, h3⟩ := hf.iters i hi
  refine ⟨h1, h2, ?_⟩
  cases e : i.finished with
  | true => rw [e] at h3; exact h3
  | false =>
    rw [e] at h3
    exact ⟨h3.1, h3.2.choose, h3.2.choose_spec.1, h3.2.choose_spec.2.congr h h3.1⟩

theorem Chain.congr {views : Nat → List ScopeSkip} : ∀ {stack : List Frame} {a b : List Item} {top : Frame}, a.map skel = b.map skel →
    Chain views a top stack → Chain views b top stack := by
  intro stack
  induction stack with
  | nil => intro a b top h hc; exact FrameOK.congr h hc
  | cons f rest ih =>
    intro a b top h hc
    refine ⟨hc.1.congr h, ih ?_ hc.2⟩
    rw [List.map_take, List.map_take, h]

theorem FrameOK.views {v w : Nat → List ScopeSkip} {a : List Item} {f : Frame} (h : ∀ j < a.length, v j = w j) (hf : FrameOK v a f) :
    FrameOK w a f := by
  refine ⟨hf.len0, hf.wf, ?_, ?_, ?_, ?_, hf.iters⟩
  · intro j hj hv i hi; rw [← h j hj]; exact hf.coh j hj hv i hi
  · intro m hm
    obtain ⟨h1, h2, h3⟩ := hf.memos m hm
    exact ⟨h1, h2, fun j hj hv i hi => by rw [← h j (by omega)]; exact h3 j hj hv i hi⟩
  · intro r hr
    obtain ⟨h1, h2⟩ := hf.root r hr
    exact ⟨h1, fun j hj i hi => by rw [← h j (by omega)]; exact h2 j hj i hi⟩
  · intro hr
    obtain ⟨h1, h2⟩ := hf.noroot hr
    exact ⟨h1, fun j hj i hi => by rw [← h j hj]; exact h2 j hj i hi⟩

theorem Chain.views {v w : Nat → List ScopeSkip} : ∀ {stack : List Frame} {a : List Item} {top : Frame}, (∀ j < a.length, v j = w j) →
    Chain v a top stack → Chain w a top stack := by
  intro stack
  induction stack with
  | nil => intro a top h hc; exact FrameOK.views h hc
  | cons f rest ih =>
    intro a top h hc
    exact ⟨hc.1.views h, ih (fun j hj => h j (by rw [List.length_take] at hj; omega)) hc.2⟩

/-- advancing a lookup -/
theorem advance_ok {s : State} {views : Nat → List ScopeSkip} (hm : s.items.length ≤ maxItems) (hs : Sound views s.items)
    (hf : FrameOK views s.items s.top) (i : Iter) (h1 : i.field.length ≤ maxItems) (h2 : i.extra.length ≤ maxItems)
    (r : List (BitVec 64 × Bool)) (he : i.expected = i.results ++ r) (hr : Rem s.items s.top.skips i.id i.field i.extra i.it r) :
    ∃ items' i', advance s i = some (items', i') ∧ items'.map skel = s.items.map skel ∧ Sound views items' ∧
      IterOK items' s.top.skips i' ∧ i'.expected = i.expected ∧ i'.finished = r.isEmpty ∧ i'.results = i.results ++ r.take 1 := by
  obtain ⟨c, e, hsk, hsd, ha⟩ := search_spec hf.wf hf.len0 hm h1 h2 hf.coh hs hr
  unfold advance
  rw [e]
  refine ⟨c.items, _, rfl, hsk, hsd, ⟨h1, h2, ?_⟩, rfl, ?_⟩
  · unfold Answers at ha
    dsimp only
    cases ht : c.target with
    | none =>
      rw [ht] at ha
      simp only at ha
      rw [he, ha]
      simp
    | some t =>
      rw [ht] at ha
      obtain ⟨h0, r', er, hr'⟩ := ha
      simp only [Option.isNone_some, Bool.false_eq_true, if_false, Option.map_some, Option.toList_some]
      exact ⟨h0, r', by rw [he, er]; simp, hr'.congr hsk.symm h0⟩
  · unfold Answers at ha
    dsimp only
    cases ht : c.target with
    | none => rw [ht] at ha; simp only at ha; rw [ha]; simp
    | some t => rw [ht] at ha; obtain ⟨h0, r', er, hr'⟩ := ha; rw [er]; simp

/-- no autocall -/
def Op.plain : Op → Bool
  | .autocall _ => false
  | _ => true

theorem chain_items {views : Nat → List ScopeSkip} {s : State} {items' : List Item} {fr : Frame} (hc : Chain views s.items s.top s.stack)
    (hsk : items'.map skel = s.items.map skel) (hl : fr.len0 = s.top.len0) (hf : FrameOK views items' fr) : Chain views items' fr s.stack := by
  refine (hc.congr hsk.symm).replace hf ?_
  rw [hl]

theorem FrameOK.append {views : Nat → List ScopeSkip} {items : List Item} {f : Frame} (hf : FrameOK views items f) (x : Item) :
    FrameOK (fun j => if j = items.length then f.skips else views j) (items ++ [x]) f := by
  have hl : (items ++ [x]).length = items.length + 1 := by simp
  have hne : ∀ j < items.length, (if j = items.length then f.skips else views j) = views j := fun j hj => if_neg (by omega)
  refine ⟨by rw [hl]; have := hf.len0; omega, hf.wf, ?_, ?_, ?_, ?_, ?_⟩
  · intro j hj hv i hi
    by_cases h : j = items.length
    · simp only [h, if_true]
    · simp only [h, if_false]
      exact hf.coh j (by omega) hv i hi
  · intro m hm
    obtain ⟨h1, h2, h3⟩ := hf.memos m hm
    exact ⟨by omega, h2, fun j hj hv i hi => by simp only [hne j (by omega)]; exact h3 j hj hv i hi⟩
  · intro r hr
    obtain ⟨h1, h2⟩ := hf.root r hr
    exact ⟨by omega, fun j hj i hi => by simp only [hne j (by omega)]; exact h2 j hj i hi⟩
  · intro hr
    obtain ⟨h1, h2⟩ := hf.noroot hr
    refine ⟨h1, fun j hj i hi => ?_⟩
    by_cases h : j = items.length
    · simp only [h, if_true]; rw [h1]; rfl
    · simp only [h, if_false]
      exact h2 j (by omega) i hi
  · intro i hi
    obtain ⟨h1, h2, h3⟩ := hf.iters i hi
    refine ⟨h1, h2, ?_⟩
    cases e : i.finished with
    | true => rw [e] at h3; exact h3
    | false =>
      rw [e] at h3
      exact ⟨h3.1, h3.2.choose, h3.2.choose_spec.1, h3.2.choose_spec.2.append [x] h3.1⟩

/-- what can be asked for: room for another item, a function that exists, an activation to end, a lookup to continue -/
def Possible (s : State) (op : Op) : Prop :=
  match op with
  | .push .. => s.items.length < maxItems
  | .declare | .block => True
  | .enter m => m < s.top.memos.length
  | .autocall _ => False
  | .close => s.stack ≠ []
  | .look _ field extra => field.length ≤ maxItems ∧ extra.length ≤ maxItems
  | .next k => ∃ i, s.top.iters[k]? = some i ∧ i.finished = false

/-- **every step** keeps the invariant, and only an impossible request fails -/
theorem step_ok {s : State} (h : Inv s) (op : Op) : Possible s op →
    ∃ s', step s op = some s' ∧ Inv s' := by
  obtain ⟨views, hm, hs, hc⟩ := h
  have hf := hc.top
  cases op with
  | push id t sh =>
    intro hlt
    have hlt' : s.items.length < maxItems := hlt
    refine ⟨_, if_pos hlt, fun j => if j = s.items.length then s.top.skips else views j, by simp; omega, ?_, ?_⟩
    · intro j x hx hcs i hi y hy hv
      by_cases hj : j = s.items.length
      · subst hj
        rw [List.getElem?_append_right (Nat.le_refl _)] at hx
        simp at hx
        rw [← hx, (mkItem_skel id t sh).2] at hcs
        cases hcs
      · have hjl : j < s.items.length := by
          rcases Nat.lt_or_ge j (s.items ++ [mkItem id t sh]).length with h | h
          · simp at h; omega
          · rw [List.getElem?_eq_none h] at hx; cases hx
        rw [List.getElem?_append_left hjl] at hx
        rw [List.getElem?_append_left (by omega)] at hy
        simp only [hj, if_false] at hv
        exact hs j x hx hcs i hi y hy hv
    · cases hst : s.stack with
      | nil => exact hf.append _
      | cons f rest =>
        rw [hst] at hc
        refine ⟨hf.append _, ?_⟩
        rw [List.take_append_of_le_length hf.len0]
        refine hc.2.views fun j hj => (if_neg ?_).symm
        rw [List.length_take] at hj
        omega
  | declare =>
    intro _
    refine ⟨_, rfl, views, hm, hs, hc.replace ?_ rfl⟩
    refine ⟨hf.len0, hf.wf, hf.coh, ?_, hf.root, hf.noroot, hf.iters⟩
    intro m hmem
    rcases List.mem_append.1 hmem with hmem | hmem
    · exact hf.memos m hmem
    · rw [List.mem_singleton] at hmem
      split at hmem
      · cases hmem
        exact ⟨Nat.le_refl _, hf.wf.mono hf.len0, hf.coh⟩
      · cases hmem
  | block =>
    intro _
    refine ⟨_, rfl, views, hm, hs, ?_, by rw [List.take_length]; exact hc⟩
    exact ⟨Nat.le_refl _, hf.wf.mono hf.len0, hf.coh, hf.memos, hf.root, hf.noroot, fun _ hi => by cases hi⟩
  | enter m =>
    intro hlt
    obtain ⟨memo, hmemo⟩ : ∃ memo, s.top.memos[m]? = some memo := ⟨_, List.getElem?_eq_getElem hlt⟩
    unfold step
    simp only [hmemo, Option.bind_eq_bind, Option.bind_some]
    cases hroot : s.top.root with
    | none =>
      obtain ⟨h1, h2⟩ := hf.noroot hroot
      refine ⟨_, rfl, views, hm, hs, ?_, by rw [List.take_length]; exact hc⟩
      refine ⟨Nat.le_refl _, hf.wf.mono hf.len0, hf.coh, hf.memos, ?_, (fun h => by cases h), (fun _ hi => by cases hi)⟩
      intro r hr
      cases hr
      exact ⟨Nat.le_refl _, h2⟩
    | some r =>
      obtain ⟨h1, h2⟩ := hf.root r hroot
      have hM : (memo.getD ⟨r, []⟩).len ≤ s.items.length ∧ WF (memo.getD ⟨r, []⟩).skips (memo.getD ⟨r, []⟩).len ∧
          Coh views (memo.getD ⟨r, []⟩).skips (memo.getD ⟨r, []⟩).len := by
        cases memo with
        | none => exact ⟨h1, WF.nil _, fun j hj _ i hi => (h2 j hj i hi).symm ▸ rfl⟩
        | some mm => exact hf.memos mm (List.mem_of_getElem? hmemo)
      obtain ⟨sk', e, hw, hv⟩ := push_spec hM.2.1 hM.1
      simp only [e, Option.bind_some]
      refine ⟨_, rfl, views, hm, hs, ?_, by rw [List.take_length]; exact hc⟩
      refine ⟨Nat.le_refl _, hw, ?_, hf.memos, ?_, ?_, fun _ hi => by cases hi⟩
      · intro j hj hvj i hi
        have h3 := (hv j).1 hvj
        have hjl : j < (memo.getD ⟨r, []⟩).len := by
          have := h3.2
          simp only at hj
          omega
        rw [← hM.2.2 j hjl h3.1 i hi, Bool.eq_iff_iff, hv i]
        constructor
        · exact fun h => h.1
        · exact fun h => ⟨h, by omega⟩
      · intro r' hr'
        exact hf.root r' (hroot.trans hr')
      · intro h0
        cases h0
  | autocall m => intro h; exact h.elim
  | close =>
    intro hne
    cases hst : s.stack with
    | nil => exact absurd hst hne
    | cons f rest =>
      rw [hst] at hc
      refine ⟨⟨s.items.take s.top.len0, f, rest⟩, ?_, views, ?_, ?_, hc.2⟩
      · unfold step; simp only [hst]
      · simp only [List.length_take]; omega
      · intro j x hx hcs i hi y hy hv
        have g : ∀ {k : Nat} {z : Item}, (s.items.take s.top.len0)[k]? = some z → s.items[k]? = some z := by
          intro k z hk
          rw [List.getElem?_take] at hk
          split at hk
          · exact hk
          · cases hk
        exact hs j x (g hx) hcs i hi y (g hy) hv
  | look id field extra =>
    intro hb
    have hb : field.length ≤ maxItems ∧ extra.length ≤ maxItems := hb
    unfold step
    simp only
    rw [if_pos hb]
    obtain ⟨items', i', e, hsk, hsd, hok, _⟩ := advance_ok hm hs hf
      ⟨id, field, extra, 0, [], false, answers s.items s.top.skips id field extra⟩ hb.1 hb.2 _ rfl
      (Or.inl ⟨rfl, answers_eq _ _ _ _ _⟩)
    rw [e]
    have hl : items'.length = s.items.length := by simpa using congrArg List.length hsk
    refine ⟨⟨items', { s.top with iters := s.top.iters ++ [i'] }, s.stack⟩, rfl, views, by rw [← hl] at hm; exact hm, hsd, chain_items (s := s) hc hsk rfl ?_⟩
    have hf' := hf.congr hsk.symm
    refine ⟨hf'.len0, hf'.wf, hf'.coh, hf'.memos, hf'.root, hf'.noroot, fun i hi => ?_⟩
    rcases List.mem_append.1 hi with hi | hi
    · exact hf'.iters i hi
    · rw [List.mem_singleton.1 hi]; exact hok
  | next k =>
    rintro ⟨i, hi, hfin⟩
    unfold step
    simp only [hi, hfin, Bool.false_eq_true, if_false]
    obtain ⟨h1, h2, h3⟩ := hf.iters i (List.mem_of_getElem? hi)
    rw [hfin] at h3
    obtain ⟨h0, r, he, hr⟩ := h3
    obtain ⟨items', i', e, hsk, hsd, hok, _⟩ := advance_ok hm hs hf i h1 h2 r he hr
    rw [e]
    have hl : items'.length = s.items.length := by simpa using congrArg List.length hsk
    refine ⟨⟨items', { s.top with iters := s.top.iters.set k i' }, s.stack⟩, rfl, views, by rw [← hl] at hm; exact hm, hsd, chain_items (s := s) hc hsk rfl ?_⟩
    have hf' := hf.congr hsk.symm
    refine ⟨hf'.len0, hf'.wf, hf'.coh, hf'.memos, hf'.root, hf'.noroot, fun j hj => ?_⟩
    rcases List.mem_or_eq_of_mem_set hj with hj | hj
    · exact hf'.iters j hj
    · rw [hj]; exact hok

theorem init_ok : Inv init := by
  refine ⟨fun _ => [], by decide, ?_, ?_⟩
  · intro j x hx; simp [init] at hx
  · refine ⟨by decide, WF.nil _, ?_, ?_, ?_, ?_, ?_⟩
    · intro j hj; simp [init] at hj
    · intro m hm; simp [init] at hm
    · intro r hr; cases hr
    · intro _; exact ⟨rfl, fun j hj => by simp [init] at hj⟩
    · intro i hi; cases hi

/-- a step that succeeded was possible -/
theorem step_possible {s s' : State} (op : Op) (hp : op.plain = true) (h : step s op = some s') :
    Possible s op := by
  cases op with
  | push id t sh =>
    simp only [step] at h
    split at h
    · assumption
    · cases h
  | declare => trivial
  | block => trivial
  | enter m =>
    simp only [step] at h
    rcases Nat.lt_or_ge m s.top.memos.length with hl | hl
    · exact hl
    · rw [List.getElem?_eq_none hl] at h; simp at h
  | autocall m => cases hp
  | close =>
    intro h0
    simp only [step, h0] at h
    cases h
  | look id field extra =>
    simp only [step] at h
    split at h
    · assumption
    · cases h
  | next k =>
    simp only [step] at h
    cases hk : s.top.iters[k]? with
    | none => rw [hk] at h; cases h
    | some i =>
      rw [hk] at h
      simp only at h
      cases hfin : i.finished with
      | true => rw [hfin] at h; simp at h
      | false => exact ⟨i, hk, hfin⟩

theorem run_ok : ∀ (ops : List Op) (s s' : State), Inv s → (∀ op ∈ ops, op.plain = true) → run s ops = some s' → Inv s' := by
  intro ops
  induction ops with
  | nil => intro s s' h _ e; cases e; exact h
  | cons op rest ih =>
    intro s s' h hp e
    unfold run at e
    rw [List.foldlM_cons] at e
    cases hst : step s op with
    | none => rw [hst] at e; cases e
    | some t =>
      rw [hst] at e
      have hp0 := hp op (List.mem_cons_self ..)
      obtain ⟨t', et, ht⟩ := step_ok h op (step_possible op hp0 hst)
      rw [hst] at et
      cases et
      exact ih t s' ht (fun o ho => hp o (List.mem_cons_of_mem _ ho)) e

end Verif.Scope
