import Verif.Build
/-!
# The hash of an include stands for the whole tree of texts below it
-/
namespace Verif.Build
open Verif
set_option linter.unusedSectionVars false

variable {U : Type} (H : Hash U) (L : Lang)

mutual
/-- The hash of a tree. -/
def hashT : Tree → U
  | .sys => H.zero
  | .node t ks =>
    match hashTs ks with
    | [] => H.of [.text t]
    | h :: hs => H.of ((h :: hs).map .num ++ [.num (H.of [.text t])])
def hashTs : List Tree → List U
  | [] => []
  | k :: ks => hashT k :: hashTs ks
end

theorem hashTs_map (ks : List Tree) : hashTs H ks = ks.map (hashT H) := by
  induction ks with
  | nil => rfl
  | cons k ks ih => rw [hashTs, ih, List.map_cons]

theorem of_ne_zero {l : List (Item U)} (h : l ≠ []) : H.of l ≠ H.zero := fun e => h (H.inj _ _ e)

theorem hashT_zero (t : Tree) : hashT H t = H.zero ↔ t = .sys := by
  constructor
  · intro h
    cases t with
    | sys => rfl
    | node t ks =>
      rw [hashT] at h
      split at h
      · exact absurd h (of_ne_zero H (by simp))
      · exact absurd h (of_ne_zero H (by simp))
  · rintro rfl; rw [hashT]

theorem num_inj {a b : List U} (h : a.map (Item.num (U := U)) = b.map .num) : a = b := by
  induction a generalizing b with
  | nil => cases b with
    | nil => rfl
    | cons => cases h
  | cons x a ih => cases b with
    | nil => cases h
    | cons y b =>
      rw [List.map_cons, List.map_cons, List.cons.injEq] at h
      rw [Item.num.inj h.1, ih h.2]

mutual
theorem hashT_inj : ∀ (a b : Tree), hashT H a = hashT H b → a = b
  | .sys, b, h => by
    rw [hashT] at h
    exact ((hashT_zero H b).1 h.symm).symm
  | .node t ks, .sys, h => by
    have := (hashT_zero H (.node t ks)).1 (by rw [h, hashT])
    cases this
  | .node t ks, .node t' ks', h => by
    have ih := hashTs_inj ks ks'
    rw [hashT, hashT] at h
    cases hk : hashTs H ks with
    | nil =>
      cases hk' : hashTs H ks' with
      | nil =>
        rw [hk, hk'] at h
        have := H.inj _ _ h
        rw [ih (by rw [hk, hk'])]
        simpa using this
      | cons x xs =>
        rw [hk, hk'] at h
        have := H.inj _ _ h
        simp at this
    | cons x xs =>
      cases hk' : hashTs H ks' with
      | nil =>
        rw [hk, hk'] at h
        have := H.inj _ _ h
        simp at this
      | cons y ys =>
        rw [hk, hk'] at h
        dsimp only at h
        have := H.inj _ _ h
        obtain ⟨e1, e2⟩ := List.append_inj' this rfl
        have e3 := num_inj e1
        have e4 : H.of [.text t] = H.of [.text t'] := by simpa using e2
        have e5 : t = t' := by simpa using H.inj _ _ e4
        rw [ih (by rw [hk, hk', e3]), e5]
theorem hashTs_inj : ∀ (a b : List Tree), hashTs H a = hashTs H b → a = b
  | [], [], _ => rfl
  | [], _ :: _, h => by simp [hashTs] at h
  | _ :: _, [], h => by simp [hashTs] at h
  | a :: as, b :: bs, h => by
    rw [hashTs, hashTs, List.cons.injEq] at h
    rw [hashT_inj a b h.1, hashTs_inj as bs h.2]
end

/-! ## Trees -/

variable {L}

theorem trees_nil (fs : Str → Option Str) (n : Nat) (p : Str) : trees L fs n p [] = some [] := rfl

theorem trees_cons (fs : Str → Option Str) (n : Nat) (p i : Str) (t : List Str) (ts : List Tree) :
    trees L fs n p (i :: t) = some ts ↔
      ∃ x xs, ts = x :: xs ∧ (match L.target p i with | none => some Tree.sys | some q => tree L fs n q) = some x ∧ trees L fs n p t = some xs := by
  unfold trees
  rw [List.mapM_cons]
  constructor
  · intro h
    simp only [Option.bind_eq_bind, Option.bind_eq_some_iff, Option.pure_def, Option.some.injEq] at h
    obtain ⟨x, h1, xs, h2, rfl⟩ := h
    exact ⟨x, xs, rfl, h1, h2⟩
  · rintro ⟨x, xs, rfl, h1, h2⟩
    simp only [Option.bind_eq_bind, Option.bind_eq_some_iff, Option.pure_def, Option.some.injEq]
    exact ⟨x, h1, xs, h2, rfl⟩

theorem tree_succ (fs : Str → Option Str) (n : Nat) (p : Str) (t : Tree) :
    tree L fs (n + 1) p = some t ↔ ∃ text ks, t = .node text ks ∧ fs p = some text ∧ trees L fs n p (L.scan text) = some ks := by
  rw [tree]
  cases h : fs p with
  | none => simp
  | some text =>
    dsimp only
    rw [Option.map_eq_some_iff]
    constructor
    · rintro ⟨ks, h1, rfl⟩
      exact ⟨text, ks, rfl, rfl, h1⟩
    · rintro ⟨text', ks, rfl, h1, h2⟩
      cases h1
      exact ⟨ks, h2, rfl⟩

theorem trees_mono_of {fs : Str → Option Str} {n m : Nat} (ih : ∀ q t, tree L fs n q = some t → tree L fs m q = some t) (p : Str) (incs : List Str) (ts : List Tree)
    (h : trees L fs n p incs = some ts) : trees L fs m p incs = some ts := by
  induction incs generalizing ts with
  | nil => exact h
  | cons i t ih2 =>
    rw [trees_cons] at h ⊢
    obtain ⟨x, xs, e, h1, h2⟩ := h
    refine ⟨x, xs, e, ?_, ih2 xs h2⟩
    cases ht : L.target p i with
    | none => rw [ht] at h1; exact h1
    | some q => rw [ht] at h1; exact ih q x h1

theorem tree_mono {fs : Str → Option Str} {n m : Nat} (hnm : n ≤ m) : ∀ {p : Str} {t : Tree}, tree L fs n p = some t → tree L fs m p = some t := by
  induction n generalizing m with
  | zero => intro p t h; cases h
  | succ n ih =>
    intro p t h
    cases m with
    | zero => omega
    | succ m =>
      rw [tree_succ] at h ⊢
      obtain ⟨text, ks, e, h1, h2⟩ := h
      exact ⟨text, ks, e, h1, trees_mono_of (fun q t => ih (by omega)) p _ ks h2⟩

/-- The least depth. -/
theorem tree_least {fs : Str → Option Str} {n : Nat} {p : Str} {t : Tree} (h : tree L fs n p = some t) :
    ∃ m, m + 1 ≤ n ∧ tree L fs (m + 1) p = some t ∧ tree L fs m p = none := by
  induction n with
  | zero => cases h
  | succ n ih =>
    cases hn : tree L fs n p with
    | none => exact ⟨n, Nat.le_refl _, h, hn⟩
    | some t' =>
      have := tree_mono (Nat.le_succ n) hn
      rw [h] at this
      cases this
      obtain ⟨m, h1, h2⟩ := ih hn
      exact ⟨m, by omega, h2⟩

/-! ## Which files were looked at -/

/-- A file and all below it are in the list. -/
inductive Covered (L : Lang) (fs : Str → Option Str) (inv : List Str) : Str → Prop
  | mk (p text : Str) (hp : p ∈ inv) (ht : fs p = some text) (h : ∀ i ∈ L.scan text, ∀ q, L.target p i = some q → Covered L fs inv q) : Covered L fs inv p

theorem Covered.mono {fs : Str → Option Str} {inv inv' : List Str} (h : ∀ p ∈ inv, p ∈ inv') {p : Str} (hp : Covered L fs inv p) : Covered L fs inv' p := by
  induction hp with
  | mk p text a b _ ih => exact .mk p text (h p a) b ih

theorem covered_trees {fs fs' : Str → Option Str} {n : Nat} {p : Str} {incs : List Str}
    (h : ∀ i ∈ incs, ∀ q, L.target p i = some q → tree L fs' n q = tree L fs n q) : trees L fs' n p incs = trees L fs n p incs := by
  unfold trees
  induction incs with
  | nil => rfl
  | cons i t ih =>
    rw [List.mapM_cons, List.mapM_cons, ih (fun j hj => h j (List.mem_cons_of_mem _ hj))]
    cases ht : L.target p i with
    | none => rfl
    | some q => dsimp only; rw [h i List.mem_cons_self q ht]

/-- If the files in the list are what they were, the tree is what it was. -/
theorem covered_tree {fs fs' : Str → Option Str} {inv : List Str} (h : ∀ p ∈ inv, fs' p = fs p) {p : Str} (hp : Covered L fs inv p) :
    ∀ n, tree L fs' n p = tree L fs n p := by
  induction hp with
  | mk p text a b _ ih =>
    intro n
    cases n with
    | zero => rfl
    | succ n =>
      rw [tree, tree, h p a, b]
      dsimp only
      have := covered_trees (L := L) (fs := fs) (fs' := fs') (n := n) (p := p) (incs := L.scan text) (fun i hi q hq => ih i hi q hq n)
      unfold trees at this
      rw [this]

/-! ## The recursive hashing -/

variable [DecidableEq U] {H}

/-- Entries for files with a tree of depth `n` are right. -/
def Good (H : Hash U) (L : Lang) (fs : Str → Option Str) (n : Nat) (s : State U) : Prop :=
  ∀ q t, tree L fs n q = some t → s.memo q ≠ H.zero → s.memo q = hashT H t ∧ Covered L fs s.inv q

/-- Only right entries are added. -/
def Step (H : Hash U) (L : Lang) (fs : Str → Option Str) (n : Nat) (s s' : State U) : Prop :=
  (∀ q, s'.memo q = s.memo q ∨ ∃ t, tree L fs n q = some t ∧ s'.memo q = hashT H t ∧ Covered L fs s'.inv q) ∧ ∀ p ∈ s.inv, p ∈ s'.inv

theorem Step.refl {fs : Str → Option Str} {n : Nat} (s : State U) : Step H L fs n s s := ⟨fun _ => .inl rfl, fun _ h => h⟩

theorem Step.trans {fs : Str → Option Str} {n : Nat} {a b c : State U} (h1 : Step H L fs n a b) (h2 : Step H L fs n b c) : Step H L fs n a c := by
  refine ⟨?_, fun p hp => h2.2 p (h1.2 p hp)⟩
  intro q
  rcases h2.1 q with h | h
  · rcases h1.1 q with h' | ⟨t, x, y, z⟩
    · exact .inl (h.trans h')
    · exact .inr ⟨t, x, h.trans y, z.mono h2.2⟩
  · exact .inr h

theorem Step.mono {fs : Str → Option Str} {n m : Nat} (hnm : n ≤ m) {a b : State U} (h : Step H L fs n a b) : Step H L fs m a b := by
  refine ⟨fun q => ?_, h.2⟩
  rcases h.1 q with h | ⟨t, x, y, z⟩
  · exact .inl h
  · exact .inr ⟨t, tree_mono hnm x, y, z⟩

theorem Good.step {fs : Str → Option Str} {n m : Nat} {a b : State U} (hg : Good H L fs n a) (h : Step H L fs m a b) : Good H L fs n b := by
  intro q t ht hz
  rcases h.1 q with e | ⟨t', x, y, z⟩
  · rw [e] at hz ⊢
    have := hg q t ht hz
    exact ⟨this.1, this.2.mono h.2⟩
  · have : t' = t := by
      have h1 := tree_mono (Nat.le_max_left n m) ht
      have h2 := tree_mono (Nat.le_max_right n m) x
      rw [h1] at h2; exact (Option.some.inj h2).symm
    rw [← this]; exact ⟨y, z⟩

theorem Good.le {fs : Str → Option Str} {n m : Nat} (hnm : n ≤ m) {a : State U} (hg : Good H L fs m a) : Good H L fs n a :=
  fun q t ht hz => hg q t (tree_mono hnm ht) hz

theorem visits_spec {fs : Str → Option Str} {n : Nat} (rec : State U → Str → Option (State U × U))
    (hrec : ∀ q t s, tree L fs n q = some t → Good H L fs n s → ∃ s', rec s q = some (s', hashT H t) ∧ Step H L fs n s s' ∧ Covered L fs s'.inv q)
    (p : Str) (incs : List Str) : ∀ (ts : List Tree) (s : State U), trees L fs n p incs = some ts → Good H L fs n s →
      ∃ s', visits H L rec p s incs = some (s', hashTs H ts) ∧ Step H L fs n s s' ∧ ∀ i ∈ incs, ∀ q, L.target p i = some q → Covered L fs s'.inv q := by
  induction incs with
  | nil =>
    intro ts s h _
    cases h
    exact ⟨s, rfl, .refl s, fun i hi => by cases hi⟩
  | cons i t ih =>
    intro ts s h hg
    rw [trees_cons] at h
    obtain ⟨x, xs, rfl, h1, h2⟩ := h
    have one : ∃ s', visit H L rec p s i = some (s', hashT H x) ∧ Step H L fs n s s' ∧ ∀ q, L.target p i = some q → Covered L fs s'.inv q := by
      unfold visit
      cases ht : L.target p i with
      | none =>
        rw [ht] at h1; cases h1
        exact ⟨s, by rw [hashT], .refl s, fun q hq => by cases hq⟩
      | some q =>
        rw [ht] at h1
        obtain ⟨s', a, b, c⟩ := hrec q x s h1 hg
        exact ⟨s', a, b, fun q' hq' => by cases hq'; exact c⟩
    obtain ⟨s1, a1, b1, c1⟩ := one
    obtain ⟨s2, a2, b2, c2⟩ := ih xs s1 h2 (hg.step b1)
    refine ⟨s2, ?_, b1.trans b2, ?_⟩
    · rw [visits, a1]
      dsimp only
      rw [a2, hashTs]
    · intro j hj q hq
      rcases List.mem_cons.1 hj with rfl | hj
      · exact (c1 q hq).mono b2.2
      · exact c2 j hj q hq

/-- The hash of a header that has a tree is the hash of the tree. -/
theorem follow_spec {fs : Str → Option Str} (n : Nat) : ∀ (fuel : Nat) (p : Str) (t : Tree) (s : State U), n ≤ fuel → tree L fs n p = some t → Good H L fs n s →
    ∃ s', follow H L fs fuel s p = some (s', hashT H t) ∧ Step H L fs n s s' ∧ Covered L fs s'.inv p := by
  induction n using Nat.strongRecOn with
  | _ n ih =>
    intro fuel p t s hf ht hg
    obtain ⟨m, hm, ht', hnone⟩ := tree_least ht
    cases fuel with
    | zero => omega
    | succ fuel =>
      rw [follow]
      by_cases hz : s.memo p ≠ H.zero
      · rw [if_pos hz]
        obtain ⟨a, b⟩ := hg p t ht hz
        exact ⟨s, by rw [a], .refl s, b⟩
      · rw [if_neg hz]
        obtain ⟨text, ks, rfl, h1, h2⟩ := (tree_succ fs m p t).1 ht'
        rw [h1]
        dsimp only
        have hg1 : Good H L fs m (State.set { s with inv := s.inv ++ [p] } p (H.of [.text text])) := by
          intro q t hq hz
          have hne : q ≠ p := by rintro rfl; rw [hnone] at hq; cases hq
          have e : (State.set { s with inv := s.inv ++ [p] } p (H.of [.text text])).memo q = s.memo q := if_neg hne
          rw [e] at hz ⊢
          obtain ⟨a, b⟩ := hg q t (tree_mono (by omega) hq) hz
          exact ⟨a, b.mono (fun x hx => List.mem_append_left _ hx)⟩
        obtain ⟨s2, e2, st2, c2⟩ := visits_spec (H := H) (follow H L fs fuel) (fun q t s hq hg => ih m (by omega) fuel q t s (by omega) hq hg) p (L.scan text) ks _ h2 hg1
        rw [e2]
        dsimp only
        have hp2 : p ∈ s2.inv := st2.2 p (by show p ∈ s.inv ++ [p]; simp)
        have hcov : Covered L fs s2.inv p := .mk p text hp2 h1 c2
        have hsub : ∀ x ∈ s.inv, x ∈ s2.inv := fun x hx => st2.2 x (List.mem_append_left _ hx)
        have hmp : s2.memo p = H.of [.text text] := by
          rcases st2.1 p with e | ⟨t, x, _⟩
          · rw [e]; exact if_pos rfl
          · rw [hnone] at x; cases x
        have hmq : ∀ q, q ≠ p → s2.memo q = s.memo q ∨ ∃ t, tree L fs n q = some t ∧ s2.memo q = hashT H t ∧ Covered L fs s2.inv q := by
          intro q hq
          rcases st2.1 q with e | ⟨t, x, y, z⟩
          · rw [e]; exact .inl (if_neg hq)
          · exact .inr ⟨t, tree_mono (by omega) x, y, z⟩
        have hT : hashT H (.node text ks) = match hashTs H ks with
          | [] => H.of [.text text]
          | h :: hs => H.of ((h :: hs).map .num ++ [.num (H.of [.text text])]) := by rw [hashT]
        cases hk : hashTs H ks with
        | nil =>
          rw [if_neg (by simp)]
          rw [hk] at hT
          refine ⟨s2, by rw [hT], ⟨?_, hsub⟩, hcov⟩
          intro q
          by_cases hq : q = p
          · subst hq
            exact .inr ⟨_, ht, by rw [hmp, hT], hcov⟩
          · exact hmq q hq
        | cons h hs =>
          rw [if_pos (by simp)]
          rw [hk] at hT
          refine ⟨s2.set p (H.of (List.map Item.num (h :: hs) ++ [.num (H.of [.text text])])), by rw [hT], ⟨?_, hsub⟩, hcov⟩
          intro q
          by_cases hq : q = p
          · subst hq
            exact .inr ⟨_, ht, by rw [hT]; exact if_pos rfl, hcov⟩
          · have e : (s2.set p (H.of (List.map Item.num (h :: hs) ++ [.num (H.of [.text text])]))).memo q = s2.memo q := if_neg hq
            rw [e]
            exact hmq q hq

end Verif.Build
