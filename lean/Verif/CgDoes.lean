import Verif.CgMean

/-!
# C92: reasoning about all the ways an evaluation can go
-/

namespace Verif.CgMean

open Verif.CgText Verif.CgExpr Verif.CppGram

variable {W : World}

/-- The evaluation goes somewhere, and wherever it goes the outcome is `o`, with temporaries as `Q`
says. -/
def Does {α : Type} (d : D W α) (s : W.σ) (τ : Nat → CVal) (o : Option (α × W.σ)) (Q : (Nat → CVal) → Prop) : Prop :=
  (∃ r, d (s, τ) r) ∧ ∀ r, d (s, τ) r → match o, r with
    | none, none => True
    | some x, some y => y.1 = x.1 ∧ y.2.1 = x.2 ∧ Q y.2.2
    | _, _ => False

theorem Does.mono {α : Type} {d : D W α} {s : W.σ} {τ : Nat → CVal} {o : Option (α × W.σ)} {Q Q' : (Nat → CVal) → Prop}
    (h : Does d s τ o Q) (hq : ∀ τ', Q τ' → Q' τ') : Does d s τ o Q' := by
  refine ⟨h.1, fun r hr => ?_⟩
  have := h.2 r hr
  cases o with
  | none => cases r <;> simp_all
  | some x =>
      cases r with
      | none => exact this
      | some y => exact ⟨this.1, this.2.1, hq _ this.2.2⟩

theorem does_ret {α : Type} (a : α) (s : W.σ) (τ : Nat → CVal) {Q : (Nat → CVal) → Prop} (hq : Q τ) :
    Does (D.ret a) s τ (some (a, s)) Q :=
  ⟨⟨_, rfl⟩, fun r hr => by subst hr; exact ⟨rfl, rfl, hq⟩⟩

theorem does_act {α : Type} (f : M W α) (s : W.σ) (τ : Nat → CVal) {Q : (Nat → CVal) → Prop} (hq : Q τ) :
    Does (D.act f) s τ (f s) Q := by
  refine ⟨⟨_, rfl⟩, fun r hr => ?_⟩
  subst hr
  show match f s, (f s).map (fun x => (x.1, (x.2, τ))) with
    | none, none => True | some x, some y => y.1 = x.1 ∧ y.2.1 = x.2 ∧ Q y.2.2 | _, _ => False
  cases f s with
  | none => trivial
  | some x => exact ⟨rfl, rfl, hq⟩

theorem does_opt {α : Type} {a : Option α} {x : α} (h : a = some x) (s : W.σ) (τ : Nat → CVal) {Q : (Nat → CVal) → Prop}
    (hq : Q τ) : Does (D.opt a) s τ (some (x, s)) Q := by
  subst h; exact does_ret x s τ hq

theorem does_seq {α β : Type} {d : D W α} {f : α → D W β} {s : W.σ} {τ : Nat → CVal} {o : Option (α × W.σ)}
    {o' : α × W.σ → Option (β × W.σ)} {Q Q' : (Nat → CVal) → Prop}
    (hd : Does d s τ o Q)
    (hf : ∀ a s' τ', o = some (a, s') → Q τ' → Does (f a) s' τ' (o' (a, s')) Q') :
    Does (D.seq d f) s τ (o.bind o') Q' := by
  obtain ⟨⟨r1, h1⟩, h2⟩ := hd
  constructor
  · have hm := h2 r1 h1
    cases r1 with
    | none => exact ⟨none, none, h1, rfl⟩
    | some y =>
        cases o with
        | none => exact hm.elim
        | some x =>
            obtain ⟨ha, hs, hq⟩ := hm
            obtain ⟨⟨r2, h3⟩, _⟩ := hf x.1 x.2 y.2.2 rfl hq
            refine ⟨r2, some y, h1, ?_⟩
            dsimp only
            rw [ha, show y.2 = (y.2.1, y.2.2) from rfl, hs]
            exact h3
  · rintro r ⟨r1, h1, h3⟩
    have hm := h2 r1 h1
    cases r1 with
    | none =>
        dsimp only at h3
        subst h3
        cases o with
        | none => trivial
        | some x => exact hm.elim
    | some y =>
        cases o with
        | none => exact hm.elim
        | some x =>
            obtain ⟨ha, hs, hq⟩ := hm
            dsimp only at h3
            rw [ha, show y.2 = (y.2.1, y.2.2) from rfl, hs] at h3
            exact (hf x.1 x.2 y.2.2 rfl hq).2 r h3

/-- a value for which nothing more is to be done -/
theorem does_map {α β : Type} {d : D W α} {f : α → β} {s : W.σ} {τ : Nat → CVal} {o : Option (α × W.σ)}
    {Q : (Nat → CVal) → Prop} (hd : Does d s τ o Q) :
    Does (D.seq d fun a => D.ret (f a)) s τ (o.map fun x => (f x.1, x.2)) Q := by
  have h := does_seq (o' := fun x => some (f x.1, x.2)) (Q' := Q) hd (fun a s' τ' _ hq => does_ret (f a) s' τ' hq)
  cases o <;> exact h

theorem seq_assoc {α β γ : Type} (d : D W α) (f : α → D W β) (g : β → D W γ) :
    D.seq (D.seq d f) g = D.seq d (fun a => D.seq (f a) g) := by
  funext s r
  apply propext
  constructor
  · rintro ⟨r1, ⟨r0, h0, h1⟩, h2⟩
    refine ⟨r0, h0, ?_⟩
    cases r0 with
    | none => dsimp only at h1 ⊢; subst h1; exact h2
    | some x => exact ⟨r1, h1, h2⟩
  · rintro ⟨r0, h0, h1⟩
    cases r0 with
    | none => exact ⟨none, ⟨none, h0, rfl⟩, h1⟩
    | some x =>
        obtain ⟨r1, h1, h2⟩ := h1
        exact ⟨r1, ⟨some x, h0, h1⟩, h2⟩

/-! ## Any order -/

/-- Computations with the given numbers, in the order of the numbers. -/
def runIs (fs : List (M W CVal)) : List Nat → M W (List (Nat × CVal))
  | [], s => some ([], s)
  | i :: r, s => ((fs.getD i (fun _ => none)) s).bind fun x => (runIs fs r x.2).map fun y => ((i, x.1) :: y.1, y.2)

/-- Computations one after the other. -/
def seqF : List (M W CVal) → M W (List CVal)
  | [], s => some ([], s)
  | f :: r, s => (f s).bind fun x => (seqF r x.2).map fun y => (x.1 :: y.1, y.2)

theorem Comm.symm {α β : Type} {f : M W α} {g : M W β} (h : Comm f g) : Comm g f := by
  intro s
  have := congrArg (Option.map fun (x : α × β × W.σ) => (x.2.1, x.1, x.2.2)) (h s)
  simp only [Option.map_bind, Option.map_map, Function.comp_def] at this
  exact this.symm

/-- the same values for the same numbers, and the same world -/
def SameUpTo (a b : Option (List (Nat × CVal) × W.σ)) : Prop :=
  match a, b with
  | none, none => True
  | some x, some y => x.1.Perm y.1 ∧ x.2 = y.2
  | _, _ => False

theorem runIs_perm (fs : List (M W CVal)) {is js : List Nat} (h : is.Perm js)
    (hc : ∀ i ∈ is, ∀ j ∈ is, i ≠ j → Comm (fs.getD i fun _ => none) (fs.getD j fun _ => none)) :
    ∀ s, SameUpTo (runIs fs is s) (runIs fs js s) := by
  induction h with
  | nil => intro s; exact ⟨List.Perm.nil, rfl⟩
  | @cons i l l' _ ih =>
      intro s
      simp only [runIs]
      cases fs.getD i (fun _ => none) s with
      | none => trivial
      | some x =>
          have := ih (fun a ha b hb => hc a (List.mem_cons_of_mem _ ha) b (List.mem_cons_of_mem _ hb)) x.2
          simp only [Option.bind]
          cases h1 : runIs fs l x.2 with
          | none =>
              cases h2 : runIs fs l' x.2 with
              | none => trivial
              | some y => rw [h1, h2] at this; exact this
          | some y =>
              cases h2 : runIs fs l' x.2 with
              | none => rw [h1, h2] at this; exact this
              | some z =>
                  rw [h1, h2] at this
                  exact ⟨List.Perm.cons _ this.1, this.2⟩
  | swap i j l =>
      -- `j :: i :: l` and `i :: j :: l`
      intro s
      have refl : ∀ (o : Option (List (Nat × CVal) × W.σ)), SameUpTo o o := by
        intro o; cases o with
        | none => trivial
        | some x => exact ⟨List.Perm.refl _, rfl⟩
      by_cases hij : i = j
      · subst hij; exact refl _
      · have hcm := hc j (by simp) i (by simp) (Ne.symm hij) s
        simp only [runIs]
        generalize (fs.getD j fun _ => none) = fj at hcm ⊢
        generalize (fs.getD i fun _ => none) = fi at hcm ⊢
        cases hj : fj s with
        | none =>
            rw [hj] at hcm
            cases hi : fi s with
            | none => trivial
            | some x =>
                rw [hi] at hcm
                simp only [Option.bind] at hcm ⊢
                cases hj2 : fj x.2 with
                | none => trivial
                | some y => rw [hj2] at hcm; cases hcm
        | some y =>
            rw [hj] at hcm
            simp only [Option.bind] at hcm ⊢
            cases hi2 : fi y.2 with
            | none =>
                rw [hi2] at hcm
                cases hi : fi s with
                | none => trivial
                | some x =>
                    rw [hi] at hcm
                    simp only at hcm ⊢
                    cases hj2 : fj x.2 with
                    | none => trivial
                    | some z => rw [hj2] at hcm; cases hcm
            | some x =>
                rw [hi2] at hcm
                cases hi : fi s with
                | none => rw [hi] at hcm; cases hcm
                | some x' =>
                    rw [hi] at hcm
                    simp only at hcm ⊢
                    cases hj2 : fj x'.2 with
                    | none => rw [hj2] at hcm; cases hcm
                    | some y' =>
                        rw [hj2] at hcm
                        simp only [Option.map, Option.some.injEq, Prod.mk.injEq] at hcm
                        obtain ⟨e1, e2, e3⟩ := hcm
                        simp only []
                        rw [← e3]
                        cases runIs fs l x.2 with
                        | none => trivial
                        | some z =>
                            refine ⟨?_, rfl⟩
                            simp only
                            rw [e1, ← e2]
                            exact List.Perm.swap _ _ _
  | @trans l1 l2 l3 h1 h2 ih1 ih2 =>
      intro s
      have a := ih1 hc s
      have b := ih2 (fun i hi j hj => hc i (h1.mem_iff.2 hi) j (h1.mem_iff.2 hj)) s
      cases e1 : runIs fs l1 s <;> cases e2 : runIs fs l2 s <;> cases e3 : runIs fs l3 s <;>
        rw [e1, e2] at a <;> rw [e2, e3] at b <;> first | trivial | exact a.elim | exact b.elim | skip
      exact ⟨a.1.trans b.1, a.2.trans b.2⟩

theorem runIs_keys (fs : List (M W CVal)) (is : List Nat) (s : W.σ) {vs : List (Nat × CVal)} {s' : W.σ}
    (h : runIs fs is s = some (vs, s')) : vs.map Prod.fst = is := by
  induction is generalizing s vs s' with
  | nil => simp only [runIs, Option.some.injEq, Prod.mk.injEq] at h; rw [← h.1]; rfl
  | cons i r ih =>
      simp only [runIs] at h
      cases h1 : fs.getD i (fun _ => none) s with
      | none => rw [h1] at h; cases h
      | some x =>
          rw [h1] at h
          simp only [Option.bind] at h
          cases h2 : runIs fs r x.2 with
          | none => rw [h2] at h; cases h
          | some y =>
              rw [h2] at h
              simp only [Option.map, Option.some.injEq, Prod.mk.injEq] at h
              rw [← h.1, List.map_cons, ih x.2 (s' := y.2) (vs := y.1) h2]

theorem lookup_perm {l l' : List (Nat × CVal)} (h : l.Perm l') (hn : (l.map Prod.fst).Nodup) (i : Nat) :
    l.lookup i = l'.lookup i := by
  induction h with
  | nil => rfl
  | @cons x l l' _ ih =>
      obtain ⟨k, v⟩ := x
      rw [List.map_cons, List.nodup_cons] at hn
      rw [List.lookup_cons, List.lookup_cons, ih hn.2]
  | swap x y l =>
      obtain ⟨k, v⟩ := x
      obtain ⟨k', v'⟩ := y
      rw [List.map_cons, List.map_cons, List.nodup_cons] at hn
      simp only [List.lookup_cons]
      have hne : k' ≠ k := fun e => hn.1 (by rw [e]; exact List.mem_cons_self ..)
      by_cases h1 : i = k
      · subst h1
        have : (i == k') = false := by simpa using fun e : i = k' => hne e.symm
        simp [this]
      · have h1' : (i == k) = false := by simpa using h1
        simp [h1']
  | @trans l1 l2 l3 h1 h2 ih1 ih2 =>
      rw [ih1 hn, ih2 ((h1.map Prod.fst).nodup_iff.1 hn)]

/-- running all of them in order -/
theorem runIs_range (pre fs : List (M W CVal)) (s : W.σ) :
    runIs (pre ++ fs) (List.range' pre.length fs.length) s =
      (seqF fs s).map fun x => ((List.range' pre.length fs.length).zip x.1, x.2) := by
  induction fs generalizing pre s with
  | nil => rfl
  | cons f fs ih =>
      rw [List.length_cons, List.range'_succ]
      simp only [runIs, seqF]
      have hg : (pre ++ f :: fs).getD pre.length (fun _ => none) = f := by simp [List.getD]
      rw [hg]
      cases f s with
      | none => rfl
      | some x =>
          simp only [Option.bind]
          have := ih (pre ++ [f]) x.2
          simp only [List.append_assoc, List.cons_append, List.nil_append, List.length_append,
            List.length_singleton] at this
          rw [this]
          cases seqF fs x.2 with
          | none => rfl
          | some y => rfl

theorem lookup_zip_range (a : Nat) (vs : List CVal) (i : Nat) :
    ((List.range' a vs.length).zip vs).lookup (a + i) = vs[i]? := by
  induction vs generalizing a i with
  | nil => rfl
  | cons v vs ih =>
      rw [List.length_cons, List.range'_succ, List.zip_cons_cons, List.lookup_cons]
      cases i with
      | zero => simp
      | succ i =>
          have : (a + (i + 1) == a) = false := by simp
          rw [this]
          have := ih (a + 1) i
          rw [show a + 1 + i = a + (i + 1) by omega] at this
          simpa using this

theorem place_zip (vs : List CVal) : place vs.length ((List.range' 0 vs.length).zip vs) = vs := by
  unfold place
  apply List.ext_getElem?
  intro i
  rw [List.getElem?_map]
  by_cases h : i < vs.length
  · rw [List.getElem?_range h]
    have := lookup_zip_range 0 vs i
    rw [Nat.zero_add] at this
    simp [this, h]
  · rw [List.getElem?_eq_none (by simpa using h), List.getElem?_eq_none (by simpa using h)]
    rfl

/-- the evaluations do what the computations do, in whatever order the numbers are -/
theorem inOrder_does (ds : List (D W CVal)) (fs : List (M W CVal)) (J : (Nat → CVal) → Prop) (is : List Nat)
    (h : ∀ i ∈ is, ∀ s τ, J τ → Does (ds.getD i D.bad) s τ (fs.getD i (fun _ => none) s) J) (s : W.σ) (τ : Nat → CVal)
    (hj : J τ) : Does (inOrder ds is) s τ (runIs fs is s) J := by
  induction is generalizing s τ with
  | nil => exact does_ret _ s τ hj
  | cons i r ih =>
      refine does_seq (h i (List.mem_cons_self ..) s τ hj) (fun a s' τ' _ hq => ?_)
      have := does_map (f := fun vs => (i, a) :: vs) (ih (fun j hj => h j (List.mem_cons_of_mem _ hj)) s' τ' hq)
      exact this

theorem Does.of_eq {α : Type} {d : D W α} {s : W.σ} {τ : Nat → CVal} {o o' : Option (α × W.σ)}
    {Q : (Nat → CVal) → Prop} (h : Does d s τ o Q) (e : o = o') : Does d s τ o' Q := e ▸ h

/-- **Any order.**  If the order does not matter to what is computed, all orders do the same. -/
theorem anyOrder_does (ds : List (D W CVal)) (fs : List (M W CVal)) (hl : ds.length = fs.length)
    (J : (Nat → CVal) → Prop)
    (h : ∀ i, i < ds.length → ∀ s τ, J τ → Does (ds.getD i D.bad) s τ (fs.getD i (fun _ => none) s) J)
    (hc : ∀ i j, i < j → j < fs.length → Comm (fs.getD i fun _ => none) (fs.getD j fun _ => none))
    (s : W.σ) (τ : Nat → CVal) (hj : J τ) : Does (anyOrder ds) s τ (seqF fs s) J := by
  have key : ∀ order : List Nat, order.Perm (List.range ds.length) →
      Does (D.seq (inOrder ds order) (fun vs => D.ret (place ds.length vs))) s τ (seqF fs s) J := by
    intro order hp
    have hd := inOrder_does ds fs J order (fun i hi => h i (by
      have := hp.mem_iff.1 hi; simpa using this)) s τ hj
    refine (does_map hd).of_eq ?_
    have hcc : ∀ i ∈ order, ∀ j ∈ order, i ≠ j → Comm (fs.getD i fun _ => none) (fs.getD j fun _ => none) := by
      intro i hi j hj' hij
      have hi' : i < fs.length := by have := hp.mem_iff.1 hi; simp at this; omega
      have hj'' : j < fs.length := by have := hp.mem_iff.1 hj'; simp at this; omega
      rcases Nat.lt_or_gt_of_ne hij with hlt | hlt
      · exact hc i j hlt hj''
      · exact (hc j i hlt hi').symm
    have hsame := runIs_perm fs hp hcc s
    have hr := runIs_range [] fs s
    simp only [List.nil_append, List.length_nil, ← List.range_eq_range'] at hr
    rw [hl, hr] at hsame
    cases e1 : runIs fs order s with
    | none =>
        cases e2 : seqF fs s with
        | none => rfl
        | some y => rw [e1, e2] at hsame; exact hsame.elim
    | some x =>
        cases e2 : seqF fs s with
        | none => rw [e1, e2] at hsame; exact hsame.elim
        | some y =>
            rw [e1, e2] at hsame
            obtain ⟨hp', hs'⟩ := hsame
            have hk := runIs_keys fs order s (vs := x.1) (s' := x.2) e1
            have hlen : y.1.length = fs.length := by
              have := hp'.length_eq
              have hx : x.1.length = order.length := by rw [← hk, List.length_map]
              have ho := hp.length_eq
              simp only [List.length_zip, List.length_range] at this ho
              have := hrlen fs s y.1 y.2 e2
              exact this
            have hn : (x.1.map Prod.fst).Nodup := by
              rw [hk]; exact hp.nodup_iff.2 List.nodup_range
            simp only [Option.map, Option.some.injEq, Prod.mk.injEq]
            refine Prod.ext ?_ hs'
            show place ds.length x.1 = y.1
            have : place ds.length x.1 = place ds.length ((List.range fs.length).zip y.1) := by
              unfold place
              refine List.map_congr_left fun i _ => ?_
              rw [lookup_perm hp' hn i]
            rw [this, hl, ← hlen, List.range_eq_range']
            exact place_zip y.1
  obtain ⟨⟨r, hr⟩, _⟩ := key (List.range ds.length) (List.Perm.refl _)
  refine ⟨⟨r, _, List.Perm.refl _, hr⟩, ?_⟩
  rintro r ⟨order, hp, hr⟩
  exact (key order hp).2 r hr
where
  hrlen (fs : List (M W CVal)) (s : W.σ) (vs : List CVal) (s' : W.σ) (h : seqF fs s = some (vs, s')) :
      vs.length = fs.length := by
    induction fs generalizing s vs s' with
    | nil => simp only [seqF, Option.some.injEq, Prod.mk.injEq] at h; rw [← h.1]; rfl
    | cons f r ih =>
        simp only [seqF] at h
        cases h1 : f s with
        | none => rw [h1] at h; cases h
        | some x =>
            rw [h1] at h
            simp only [Option.bind] at h
            cases h2 : seqF r x.2 with
            | none => rw [h2] at h; cases h
            | some y =>
                rw [h2] at h
                simp only [Option.map, Option.some.injEq, Prod.mk.injEq] at h
                rw [← h.1, List.length_cons, List.length_cons, ih x.2 y.1 y.2 h2]

/-- one evaluation, in any order -/
theorem anyOrder_one {d : D W CVal} {f : M W CVal} {s : W.σ} {τ : Nat → CVal} {Q : (Nat → CVal) → Prop}
    (h : Does d s τ (f s) Q) : Does (anyOrder [d]) s τ ((f s).map fun x => ([x.1], x.2)) Q := by
  have hone : ∀ order : List Nat, order.Perm (List.range [d].length) → order = [0] := by
    intro order hp
    exact List.perm_singleton.1 hp
  have hd : Does (D.seq (inOrder [d] [0]) (fun vs => D.ret (place [d].length vs))) s τ
      ((f s).map fun x => ([x.1], x.2)) Q := by
    have h1 : Does (inOrder [d] [0]) s τ ((f s).map fun x => ([(0, x.1)], x.2)) Q := by
      refine (does_seq (o' := fun x => some ([(0, x.1)], x.2)) (Q' := Q) h (fun a s' τ' _ hq => ?_)).of_eq ?_
      · exact does_seq (does_ret _ s' τ' hq) (o' := fun _ => some ([(0, a)], s'))
          (fun b s2 τ2 e hq2 => by cases e; exact does_ret _ _ τ2 hq2)
      · cases f s <;> rfl
    refine (does_map h1).of_eq ?_
    cases f s <;> rfl
  refine ⟨?_, ?_⟩
  · obtain ⟨r, hr⟩ := hd.1
    exact ⟨r, [0], List.Perm.refl _, hr⟩
  · rintro r ⟨order, hp, hr⟩
    rw [hone order hp] at hr
    exact hd.2 r hr

end Verif.CgMean
