import Verif.CgSeq

/-!
# C92: the evaluation of arguments
-/

namespace Verif.CgMean

open Verif.CgText Verif.CgExpr Verif.CppGram Verif.CgTree

variable {W : World}

/-- The temporaries outside of the range are as they were. -/
def Agree (a b : Nat) (τ τ' : Nat → CVal) : Prop := ∀ i, i < a ∨ b ≤ i → τ' i = τ i

theorem Agree.refl (a b : Nat) (τ : Nat → CVal) : Agree a b τ τ := fun _ _ => rfl

theorem Agree.trans {a b c d p q : Nat} {τ τ' τ'' : Nat → CVal} (h : Agree a b τ τ') (h' : Agree c d τ' τ'')
    (h1 : p ≤ a) (h2 : b ≤ q) (h3 : p ≤ c) (h4 : d ≤ q) : Agree p q τ τ'' := by
  intro i hi
  rw [h' i (by omega), h i (by omega)]

theorem Agree.wide {a b p q : Nat} {τ τ' : Nat → CVal} (h : Agree a b τ τ') (h1 : p ≤ a) (h2 : b ≤ q) : Agree p q τ τ' :=
  fun i hi => h i (by omega)

variable (W) in
/-- What is written for the expression in the mode does what the expression does, and uses temporaries
of its own only. -/
def Sim (m : Mode) (e : N) : Prop :=
  ∀ k s τ, Does (W := W) (den (tr m e k)) s τ (up (run W e s)) (Agree k (cg m e k).2 τ)

/-- The temporaries of the arguments. -/
def ids (mask : Nat) : Nat → List N → Nat → List Nat
  | _, [], _ => []
  | i, a :: rest, k =>
      if held mask i a rest then (cg argMode a k).2 :: ids mask (i + 1) rest ((cg argMode a k).2 + 1)
      else ids mask (i + 1) rest (cg argMode a k).2

theorem ids_ge (mask : Nat) : (args : List N) → ∀ i k, ∀ id ∈ ids mask i args k, k ≤ id
  | [], i, k, id, h => by simp [ids] at h
  | a :: rest, i, k, id, h => by
      have ha := cg_le argMode a k
      have ih := ids_ge mask rest (i + 1)
      simp only [ids] at h
      split at h
      · rcases List.mem_cons.1 h with rfl | h
        · exact ha
        · have := ih _ id h; omega
      · have := ih _ id h; omega

/-- The expressions do what the computations do, one by one, whenever the temporaries of the arguments
hold what they should. -/
inductive Items (I : List Nat) (k e : Nat) (τ' : Nat → CVal) : List C → List (M W CVal) → Prop
  | nil : Items I k e τ' [] []
  | cons {c : C} {f : M W CVal} {cs : List C} {fs : List (M W CVal)}
      (h : ∀ s τ, (∀ id ∈ I, τ id = τ' id) →
        Does (den c) s τ (f s) (fun τ2 => (∀ id ∈ I, τ2 id = τ id) ∧ Agree k e τ τ2))
      (r : Items I k e τ' cs fs) : Items I k e τ' (c :: cs) (f :: fs)

theorem Items.weak {I I' : List Nat} {k e k' e' : Nat} {τ' : Nat → CVal} {cs : List C} {fs : List (M W CVal)}
    (h : Items I k e τ' cs fs) (hk : k' ≤ k) (he : e ≤ e') (hI : ∀ id ∈ I, id ∈ I')
    (hI' : ∀ id ∈ I', id ∈ I ∨ id < k ∨ e ≤ id) :
    Items I' k' e' τ' cs fs := by
  induction h with
  | nil => exact .nil
  | cons h _ ih =>
      refine .cons (fun s τ hτ => ?_) ih
      refine (h s τ (fun id hid => hτ id (hI id hid))).mono (fun τ2 h2 => ⟨fun id hid => ?_, h2.2.wide hk he⟩)
      rcases hI' id hid with h3 | h3
      · exact h2.1 id h3
      · exact h2.2 id h3

theorem Items.length {I : List Nat} {k e : Nat} {τ' : Nat → CVal} {cs : List C} {fs : List (M W CVal)}
    (h : Items I k e τ' cs fs) : (dens (W := W) cs).length = fs.length := by
  induction h with
  | nil => rfl
  | cons _ _ ih => rw [dens, List.length_cons, List.length_cons, ih]

theorem Items.get {I : List Nat} {k e : Nat} {τ' : Nat → CVal} {cs : List C} {fs : List (M W CVal)}
    (h : Items I k e τ' cs fs) (j : Nat) (hj : j < (dens (W := W) cs).length) (s : W.σ) (τ : Nat → CVal) (hτ : ∀ id ∈ I, τ id = τ' id) :
    Does ((dens cs).getD j D.bad) s τ (fs.getD j (fun _ => none) s) (fun τ2 => (∀ id ∈ I, τ2 id = τ id) ∧ Agree k e τ τ2) := by
  induction h generalizing j with
  | nil => simp [dens] at hj
  | cons h r ih =>
      rw [dens]
      cases j with
      | zero => exact h s τ hτ
      | succ j =>
          rw [dens, List.length_cons] at hj
          simpa using ih j (by omega)

/-- The arguments in any order. -/
theorem Items.any {I : List Nat} {k e : Nat} {τ' : Nat → CVal} {cs : List C} {fs : List (M W CVal)}
    (h : Items I k e τ' cs fs) (hc : fs.Pairwise Comm) (s : W.σ) :
    Does (anyOrder (dens cs)) s τ' (seqF fs s) (fun τ2 => Agree k e τ' τ2) := by
  have := anyOrder_does (dens (W := W) cs) fs h.length (fun τ => (∀ id ∈ I, τ id = τ' id) ∧ Agree k e τ' τ) ?_ ?_ s τ'
    ⟨fun _ _ => rfl, Agree.refl _ _ _⟩
  · exact this.mono (fun τ2 h2 => h2.2)
  · intro i hi s τ hτ
    refine (h.get i hi s τ hτ.1).mono (fun τ2 h2 => ⟨fun id hid => ?_, ?_⟩)
    · rw [h2.1 id hid, hτ.1 id hid]
    · exact hτ.2.trans h2.2 (Nat.le_refl _) (Nat.le_refl _) (Nat.le_refl _) (Nat.le_refl _)
  · intro i j hij hj
    rw [List.pairwise_iff_getElem] at hc
    have := hc i j (by omega) hj hij
    simpa [List.getD, List.getElem?_eq_getElem, hj, show i < fs.length by omega] using this

/-- **The temporaries of the arguments, and then what the arguments are.** -/
theorem hold_does (mask : Nat) : (args : List N) → (∀ a ∈ args, Sim W argMode a) → (∀ a ∈ args, Typed W a) →
    ∀ i k s τ, Does (each (trArgs mask i args k).1) s τ ((heldF W mask i args s).map fun y => ((), y.2))
      (fun τ' => Agree k (cgArgs mask i args k).2.2 τ τ' ∧ ∀ fs s', heldF W mask i args s = some (fs, s') →
        Items (ids mask i args k) k (cgArgs mask i args k).2.2 τ' (trArgs mask i args k).2 fs)
  | [], _, _, i, k, s, τ => by
      simp only [trArgs, each, heldF, cgArgs, ids]
      refine does_ret () s τ ⟨Agree.refl _ _ _, ?_⟩
      intro fs s' h
      simp only [Option.some.injEq, Prod.mk.injEq] at h
      rw [← h.1]
      exact .nil
  | a :: rest, H, HT, i, k, s, τ => by
      have hle := cg_le argMode a k
      have hsim := H a (by simp)
      have hty := HT a (by simp)
      have ih := hold_does mask rest (fun x hx => H x (List.mem_cons_of_mem _ hx)) (fun x hx => HT x (List.mem_cons_of_mem _ hx)) (i + 1)
      have hge := ids_ge mask rest (i + 1)
      have hle2 := cgArgs_le mask rest (fun x _ m k => cg_le m x k) (i + 1)
      simp only [trArgs, heldF, cgArgs, ids]
      cases hh : held mask i a rest with
      | true =>
          simp only [if_true]
          generalize hid : (cg argMode a k).2 = id at *
          have h1 := does_init (id := id) (hsim k s τ)
          rw [hid] at h1
          have hle3 := hle2 (id + 1)
          refine (does_seq (o' := fun x => (heldF W mask (i + 1) rest x.2).map fun y => ((), y.2)) h1
            (fun c s1 τ1 he hq => ?_)).of_eq ?_
          · obtain ⟨τ0, hag, x, hx, hxid, hoth⟩ := hq
            rw [he] at hx
            obtain ⟨v, hv⟩ : ∃ v, run W a s = some (v, s1) ∧ c = .v v := by
              cases hr : run W a s with
              | none => rw [hr] at he; cases he
              | some p => rw [hr] at he; cases he; exact ⟨p.1, rfl, rfl⟩
            cases hx
            refine (ih (id + 1) s1 τ1).mono (fun τ' h2 => ?_)
            have hτid : τ' id = .v v := by rw [h2.1 id (by omega), hxid]; exact hv.2
            refine ⟨?_, ?_⟩
            · intro j hj
              rw [h2.1 j (by omega), hoth j (by omega), hag j (by omega)]
            · intro fs s' hfs
              rw [hv.1] at hfs
              simp only [Option.bind] at hfs
              cases h3 : heldF W mask (i + 1) rest s1 with
              | none => rw [h3] at hfs; cases hfs
              | some y =>
                  rw [h3] at hfs
                  simp only [Option.map, Option.some.injEq, Prod.mk.injEq] at hfs
                  rw [← hfs.1]
                  refine .cons ?_ ((h2.2 y.1 y.2 h3).weak (by omega) (Nat.le_refl _)
                    (fun j hj => List.mem_cons_of_mem _ hj) ?_)
                  · intro s2 τ2 hτ2
                    exact does_consume argMode s2 (by rw [hτ2 id (by simp), hτid]) (run_ty hty hv.1)
                      ⟨fun _ _ => rfl, Agree.refl _ _ _⟩
                  · intro j hj
                    rcases List.mem_cons.1 hj with rfl | hj
                    · right; left; omega
                    · exact Or.inl hj
          · cases run W a s with
            | none => rfl
            | some x =>
                simp only [up, Option.map, Option.bind]
                cases heldF W mask (i + 1) rest x.2 <;> rfl
      | false =>
          simp only [Bool.false_eq_true, if_false]
          generalize hid : (cg argMode a k).2 = id at *
          have hle3 := hle2 id
          have h2 := ih id s τ
          have e : (Option.map (fun (y : List (M W CVal) × W.σ) => ((), y.2)) (Option.map (fun y => ((fun s => up (run W a s)) :: y.1, y.2))
              (heldF W mask (i + 1) rest s))) = (heldF W mask (i + 1) rest s).map fun y => ((), y.2) := by
            cases heldF W mask (i + 1) rest s <;> rfl
          rw [e]
          refine h2.mono (fun τ' h3 => ⟨h3.1.wide (by omega) (Nat.le_refl _), ?_⟩)
          intro fs s' hfs
          cases h4 : heldF W mask (i + 1) rest s with
          | none => rw [h4] at hfs; cases hfs
          | some y =>
              rw [h4] at hfs
              simp only [Option.map, Option.some.injEq, Prod.mk.injEq] at hfs
              rw [← hfs.1]
              refine .cons ?_ ((h3.2 y.1 y.2 h4).weak (by omega) (Nat.le_refl _) (fun _ h => h) (fun _ h => Or.inl h))
              intro s2 τ2 _
              have h5 := hsim k s2 τ2
              rw [hid] at h5
              refine h5.mono (fun τ3 h6 => ⟨fun j hj => h6 j (by have := hge _ j hj; omega), h6.wide (Nat.le_refl _) (by omega)⟩)

/-- **All the arguments**, and then whatever is done with their values. -/
theorem args_does {α : Type} (mask : Nat) (args : List N) (H : ∀ a ∈ args, Sim W argMode a) (HT : ∀ a ∈ args, Typed W a)
    (hS : Seqd W mask 0 args) (k : Nat) (s : W.σ) (τ : Nat → CVal) (g : List CVal → D W α) (g' : List Val → M W α)
    (hg : ∀ vs s τ, (∃ s0, runL W args s0 = some (vs, s)) → Does (g (vs.map .v)) s τ (g' vs s) (fun τ' => τ' = τ)) :
    Does (D.seq (each (trArgs mask 0 args k).1) fun _ => D.seq (anyOrder (dens (trArgs mask 0 args k).2)) g) s τ
      ((runL W args s).bind fun x => g' x.1 x.2) (Agree k (cgArgs mask 0 args k).2.2 τ) := by
  have h1 := hold_does mask args H HT 0 k s τ
  have hseq := heldF_seq mask args 0 hS s
  have hcm := heldF_comm mask args 0 hS s
  refine (does_seq (o' := fun _ => (runL W args s).bind fun x => g' x.1 x.2) h1 (fun _ s1 τ1 he hq => ?_)).of_eq ?_
  · cases hf : heldF W mask 0 args s with
    | none => rw [hf] at he; cases he
    | some y =>
        rw [hf] at he
        cases he
        have hit := hq.2 y.1 y.2 hf
        have h2 := hit.any (hcm y.1 y.2 hf).2 y.2
        rw [hf] at hseq
        simp only [Option.bind] at hseq
        rw [hseq] at h2
        refine (does_seq (o' := fun x => match plains x.1 with | some vs => g' vs x.2 | none => none) h2
          (fun cs s2 τ2 he2 hq2 => ?_)).of_eq ?_
        · cases hr : runL W args s with
          | none => rw [hr] at he2; cases he2
          | some x =>
              rw [hr] at he2
              cases he2
              rw [plains_map]
              refine (hg x.1 x.2 τ2 ⟨s, hr⟩).mono (fun τ3 h3 => ?_)
              subst h3
              exact hq.1.trans hq2 (Nat.le_refl _) (Nat.le_refl _) (Nat.le_refl _) (Nat.le_refl _)
        · cases runL W args s with
          | none => rfl
          | some x => simp only [Option.map, Option.bind, plains_map]
  · cases hf : heldF W mask 0 args s with
    | none =>
        rw [hf] at hseq
        simp only [Option.bind, Option.map] at hseq ⊢
        cases hr : runL W args s with
        | none => rfl
        | some x => rw [hr] at hseq; cases hseq
    | some y => rfl
where
  plains_map (vs : List Val) : plains (vs.map .v) = some vs := by
    induction vs with
    | nil => rfl
    | cons v vs ih => simp [plains, plain, ih]

end Verif.CgMean
