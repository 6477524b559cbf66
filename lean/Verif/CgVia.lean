import Verif.CgSim

/-!
# C92: operands of `&&` and `||` that are values
-/

namespace Verif.CgMean

open Verif.CgText Verif.CgExpr Verif.CppGram Verif.CgTree

variable {W : World}

/-- The temporaries outside of the range are as they were, but for one. -/
def AgreeX (tv : Option Nat) (a b : Nat) (τ τ' : Nat → CVal) : Prop := ∀ i, i < a ∨ b ≤ i → tv ≠ some i → τ' i = τ i

theorem Agree.x {a b : Nat} {τ τ' : Nat → CVal} (h : Agree a b τ τ') (tv : Option Nat) : AgreeX tv a b τ τ' :=
  fun i hi _ => h i hi

theorem AgreeX.none {a b : Nat} {τ τ' : Nat → CVal} (h : AgreeX none a b τ τ') : Agree a b τ τ' :=
  fun i hi => h i hi (by simp)

/-- the temporary used next is the one used before, or a new one -/
def Follows (tv tv' : Option Nat) (a b : Nat) : Prop := tv' = tv ∨ ∃ id, tv' = some id ∧ a ≤ id ∧ id < b

theorem AgreeX.trans {tv tv' : Option Nat} {a b c : Nat} {τ τ' τ'' : Nat → CVal} (h : AgreeX tv a b τ τ')
    (h' : AgreeX tv' b c τ' τ'') (hf : Follows tv tv' a b) (h1 : a ≤ b) (h2 : b ≤ c) : AgreeX tv a c τ τ'' := by
  intro i hi hne
  rw [h' i (by omega) ?_, h i (by omega) hne]
  rcases hf with rfl | ⟨id, rfl, h3, h4⟩
  · exact hne
  · intro e; cases e; omega

theorem AgreeX.wide {tv : Option Nat} {a b p q : Nat} {τ τ' : Nat → CVal} (h : AgreeX tv a b τ τ') (h1 : p ≤ a) (h2 : b ≤ q) :
    AgreeX tv p q τ τ' := fun i hi hne => h i (by omega) hne

theorem via_follows (m : Mode) (t : Ty) (tv : Option Nat) (x : N) (s : Text) (a k : Nat) (h : a ≤ k) :
    Follows tv (via m t tv x s k).2.1 a (via m t tv x s k).2.2 := by
  have ht : Follows tv (via.viaTemp m t tv s k).2.1 a (via.viaTemp m t tv s k).2.2 := by
    unfold via.viaTemp
    cases tv with
    | none => exact Or.inr ⟨k, rfl, h, by simp⟩
    | some id => exact Or.inl rfl
  unfold via
  split
  · exact Or.inl rfl
  · split
    · split
      · exact Or.inl rfl
      · exact ht
    · exact ht

/-- a variable, and fields of it -/
theorem chain_tr : (e : N) → chain e = true → ∀ m k, tr m e k = chainC e ∧ (cg m e k).2 = k
  | .var t x, _, m, k => by simp [tr, chainC, cg]
  | .fld t e f, h, m, k => by
      simp only [chain] at h
      have := chain_tr e h argMode k
      simp only [tr, chainC, cg, this.1]
      exact ⟨trivial, this.2⟩
  | .num _ _, h, _, _ | .flag _, h, _, _ | .call _ _ _ _, h, _, _ | .un _ _ _, h, _, _ | .bin _ _ _ _ _, h, _, _
  | .asg _ _ _ _, h, _, _ | .pre _ _ _, h, _, _ | .post _ _ _, h, _, _ | .not _, h, _, _ | .ite _ _ _ _, h, _, _
  | .and _ _, h, _, _ | .or _ _, h, _, _ | .copy _ _, h, _, _ => by simp [chain] at h

theorem chain_run : (e : N) → chain e = true → ∀ s, ∃ v, run W e s = some (v, s)
  | .var t x, _, s => ⟨_, by rw [run]⟩
  | .fld t e f, h, s => by
      simp only [chain] at h
      obtain ⟨v, hv⟩ := chain_run e h s
      exact ⟨W.field f v, by rw [run, hv]; rfl⟩
  | .num _ _, h, _ | .flag _, h, _ | .call _ _ _ _, h, _ | .un _ _ _, h, _ | .bin _ _ _ _ _, h, _
  | .asg _ _ _ _, h, _ | .pre _ _ _, h, _ | .post _ _ _, h, _ | .not _, h, _ | .ite _ _ _ _, h, _
  | .and _ _, h, _ | .or _ _, h, _ | .copy _ _, h, _ => by simp [chain] at h

theorem agree_same {k : Nat} {τ τ' : Nat → CVal} (h : Agree k k τ τ') : τ' = τ := funext fun i => h i (by omega)

theorem chain_does {e : N} (hc : chain e = true) (hs : Sim W {} e) (s : W.σ) (τ : Nat → CVal) {Q : (Nat → CVal) → Prop} (hq : Q τ) :
    Does (den (chainC e)) s τ (up (run W e s)) Q := by
  have h := hs 0 s τ
  rw [(chain_tr e hc {} 0).1, (chain_tr e hc {} 0).2] at h
  exact h.mono (fun τ' h' => by rw [agree_same h']; exact hq)

/-- **An operand that is tested and, if it decides, given.** -/
theorem via_does (m : Mode) (t : Ty) (tv : Option Nat) (x : N) (k : Nat) (hs : Sim W {} x) (hT : Typed W x) (ht : x.ty = t)
    (hcopy : ∀ t' e, x = .copy t' e → chain e = true → Sim W {} e) (s : W.σ) (τ : Nat → CVal) :
    Does (den (viaC m t tv x (tr {} x k) (cg {} x k).2).1) s τ (up (run W x s))
      (fun τ' => AgreeX tv k (via m t tv x (cg {} x k).1 (cg {} x k).2).2.2 τ τ' ∧
        ∀ v s1, run W x s = some (v, s1) → ∀ Q : (Nat → CVal) → Prop, Q τ' →
          Does (den (viaC m t tv x (tr {} x k) (cg {} x k).2).2) s1 τ' (some (.v v, s1)) Q) := by
  have hle := cg_le {} x k
  -- with a temporary
  have temp : Does (den (initC (tv.getD (cg {} x k).2) (tr {} x k))) s τ (up (run W x s))
      (fun τ' => AgreeX tv k (via.viaTemp m t tv (cg {} x k).1 (cg {} x k).2).2.2 τ τ' ∧
        ∀ v s1, run W x s = some (v, s1) → ∀ Q : (Nat → CVal) → Prop, Q τ' →
          Does (den (consumeC m t (tv.getD (cg {} x k).2))) s1 τ' (some (.v v, s1)) Q) := by
    refine (does_init (id := tv.getD (cg {} x k).2) (hs k s τ)).mono (fun τ' h => ?_)
    obtain ⟨τ0, hag, p, hp, hid, hoth⟩ := h
    refine ⟨?_, ?_⟩
    · intro i hi hne
      have hi' : i < k ∨ (cg {} x k).2 ≤ i ∧ i ≠ tv.getD (cg {} x k).2 := by
        unfold via.viaTemp at hi
        cases tv with
        | none =>
            simp only [Option.isSome, Bool.false_eq_true, if_false, Option.getD] at hi ⊢
            omega
        | some id =>
            simp only [Option.isSome, if_true, Option.getD] at hi ⊢
            have : i ≠ id := fun e => hne (by rw [e])
            omega
      have hne' : i ≠ tv.getD (cg {} x k).2 := by
        rcases hi' with h | h
        · cases tv with
          | none => simp only [Option.getD]; omega
          | some id => simp only [Option.getD]; exact fun e => hne (by rw [e])
        · exact h.2
      rw [hoth i hne', hag i (by omega)]
    · intro v s1 hr Q hQ
      rw [hr] at hp
      cases hp
      exact does_consume m s1 hid (by rw [run_ty hT hr, ht]) hQ
  unfold viaC via
  by_cases hc : chain x = true
  · rw [if_pos hc, if_pos hc]
    obtain ⟨htr, hk⟩ := chain_tr x hc {} k
    refine (hs k s τ).mono (fun τ' h => ⟨h.x tv, ?_⟩)
    intro v s1 hr Q hQ
    obtain ⟨v', hv'⟩ := chain_run (W := W) x hc s
    rw [hr] at hv'
    cases hv'
    have h2 := chain_does hc hs s τ' hQ
    rw [hr] at h2
    dsimp only
    rw [htr]
    exact h2
  · rw [if_neg hc, if_neg hc]
    cases x with
    | copy t' e =>
      dsimp only
      by_cases hce : chain e = true
      · rw [if_pos hce, if_pos hce]
        have hse := hcopy t' e rfl hce
        have hrun : run W (.copy t' e) s = run W e s := by rw [run]
        have hk : (cg {} (.copy t' e) k).2 = k := by
          simp only [cg]; exact (chain_tr e hce {} k).2
        simp only [Typed] at hT
        rw [hrun]
        refine (chain_does (Q := fun τ' => τ' = τ) hce hse s τ rfl).mono (fun τ' h => ?_)
        subst h
        refine ⟨fun i _ _ => rfl, ?_⟩
        intro v s1 hr Q hQ
        obtain ⟨v', hv'⟩ := chain_run (W := W) e hce s
        rw [hr] at hv'
        cases hv'
        have h2 := chain_does hce hse s τ' hQ
        have h3 := does_copyNodeC m (t := t') h2 (fun v s' hv => by rw [run_ty hT.1 hv]; exact hT.2)
        rw [hr] at h3
        exact h3
      · rw [if_neg hce, if_neg hce]
        exact temp
    | _ => exact temp

/-- `c ? a : b` -/
theorem does_cond {c a b : C} {s : W.σ} {τ : Nat → CVal} {o : Option (Val × W.σ)} {Q R : (Nat → CVal) → Prop}
    {F : Val × W.σ → CVal} {T : Val × W.σ → Bool} {ga gb : Val × W.σ → Option (CVal × W.σ)} (hF : ∀ x, ctruth W (F x) = T x)
    (hc : Does (den c) s τ (o.map fun x => (F x, x.2)) Q)
    (ha : ∀ x τ', o = some x → T x = true → Q τ' → Does (den a) x.2 τ' (ga x) R)
    (hb : ∀ x τ', o = some x → T x = false → Q τ' → Does (den b) x.2 τ' (gb x) R) :
    Does (den (.cond c a b)) s τ (o.bind fun x => if T x then ga x else gb x) R := by
  rw [den]
  refine (does_seq (o' := fun _ => o.bind fun x => if T x then ga x else gb x) hc (fun d s' τ' he hq => ?_)).of_eq ?_
  · cases o with
    | none => cases he
    | some x =>
        cases he
        rw [hF]
        show Does _ _ _ (if T x = true then ga x else gb x) _
        cases ht : T x with
        | true => exact ha x τ' rfl ht hq
        | false => exact hb x τ' rfl ht hq
  · cases o <;> rfl

/-- `&&` at a type that is not `bool` -/
theorem andV_does (t : Ty) : (l : List N) → l ≠ [] → (∀ x ∈ l, Sim W {} x ∧ Typed W x ∧ x.ty = t ∧
      ∀ t' e, x = .copy t' e → chain e = true → Sim W {} e) → ∀ tv k s τ,
    Does (den (trAndV t tv l k)) s τ (up (runAnd W l s)) (AgreeX tv k (cgAndV t tv l k).2 τ)
  | [], h, _, _, _, _, _ => absurd rfl h
  | [x], _, H, tv, k, s, τ => by
      simp only [trAndV, cgAndV, runAnd]
      exact ((H x (by simp)).1 k s τ).mono (fun τ' h => h.x tv)
  | x :: y :: r, _, H, tv, k, s, τ => by
      obtain ⟨hs, hT, ht, hcp⟩ := H x (by simp)
      have h1 := cg_le {} x k
      have h2 := via_le {} t tv x (cg {} x k).1 (cg {} x k).2
      have hf := via_follows {} t tv x (cg {} x k).1 k (cg {} x k).2 h1
      have hv := via_does {} t tv x k hs hT ht hcp s τ
      have e : runAnd W (x :: y :: r) s = (run W x s).bind fun p => if truth W p.1 = true then runAnd W (y :: r) p.2 else some p := by
        rw [runAnd]; simp
      rw [e]
      simp only [trAndV, cgAndV]
      generalize via {} t tv x (cg {} x k).1 (cg {} x k).2 = v at *
      generalize viaC {} t tv x (tr {} x k) (cg {} x k).2 = c at *
      have ih := andV_does t (y :: r) (by simp) (fun z hz => H z (List.mem_cons_of_mem _ hz)) v.2.1 v.2.2
      have h3 := cgAndV_le t (y :: r) (fun z _ m k => cg_le m z k) v.2.1 v.2.2
      refine (does_cond (F := fun p => .v (.bool (!truth W p.1))) (T := fun p => !truth W p.1)
        (ga := fun p => some (.v p.1, p.2)) (gb := fun p => up (runAnd W (y :: r) p.2)) (fun _ => rfl)
        (o := run W x s) ((does_not hv).of_eq ?_) ?_ ?_).of_eq ?_
      · cases run W x s <;> rfl
      · rintro ⟨u, s1⟩ τ' hr _ hq
        exact hq.2 u s1 hr _ (hq.1.wide (Nat.le_refl _) h3)
      · rintro ⟨u, s1⟩ τ' hr _ hq
        exact (ih s1 τ').mono (fun τ2 h => hq.1.trans h hf (by omega) h3)
      · cases run W x s with
        | none => rfl
        | some p =>
            simp only [Option.bind, up]
            cases truth W p.1 <;> rfl

/-- the operands of an `&&` among those of an `||` -/
theorem andVia_does (m : Mode) (t : Ty) (tv : Option Nat) : (l : List N) → 2 ≤ l.length →
    (∀ x ∈ l, Sim W {} x ∧ Typed W x ∧ ∀ t' e, x = .copy t' e → chain e = true → Sim W {} e) → lastTy t l → ∀ k s τ,
    Does (den (joinC .andand (trAndVia m t tv l k).1)) s τ (asB (runAnd W l s))
      (fun τ' => AgreeX tv k (cgAndVia m t tv l k).2.2 τ τ' ∧
        ∀ v s1, runAnd W l s = some (v, s1) → truth W v = true → ∀ Q : (Nat → CVal) → Prop, Q τ' →
          Does (den (trAndVia m t tv l k).2) s1 τ' (some (.v v, s1)) Q) ∧
    Follows tv (cgAndVia m t tv l k).2.1 k (cgAndVia m t tv l k).2.2
  | [], h, _, _, _, _, _ => by simp at h
  | [x], h, _, _, _, _, _ => by simp at h
  | [x, y], _, H, hl, k, s, τ => by
      obtain ⟨hs, hT, hcp⟩ := H x (by simp)
      obtain ⟨hs', hT', hcp'⟩ := H y (by simp)
      have h1 := cg_le {} x k
      have h1' := cg_le {} y (cg {} x k).2
      have h2 := via_le m t tv y (cg {} y (cg {} x k).2).1 (cg {} y (cg {} x k).2).2
      have hf := via_follows m t tv y (cg {} y (cg {} x k).2).1 k (cg {} y (cg {} x k).2).2 (by omega)
      simp only [trAndVia, cgAndVia, join_and, runAnd]
      have hv := fun s τ => via_does m t tv y (cg {} x k).2 hs' hT' (hl y rfl) hcp' s τ
      generalize via m t tv y (cg {} y (cg {} x k).2).1 (cg {} y (cg {} x k).2).2 = v at *
      generalize viaC m t tv y (tr {} y (cg {} x k).2) (cg {} y (cg {} x k).2).2 = c at *
      refine ⟨?_, hf⟩
      refine does_andD (g := fun s => run W y s) (hs k s τ) (fun u s' τ' hr htr hq => ?_) (fun u s' τ' hr htr hq => ?_)
      · refine (hv s' τ').mono (fun τ2 h => ⟨?_, ?_⟩)
        · exact AgreeX.trans (hq.x tv) h.1 (Or.inl rfl) h1 (by omega)
        · intro w s1 hw _ Q hQ
          rw [hr] at hw
          simp only [Option.bind, htr, if_true] at hw
          exact h.2 w s1 hw Q hQ
      · refine ⟨Agree.x (Agree.wide hq (Nat.le_refl _) (by omega)) tv, ?_⟩
        intro w s1 hw hwt
        rw [hr] at hw
        simp only [Option.bind, htr] at hw
        cases hw
        rw [htr] at hwt; cases hwt
  | x :: y :: z :: r, _, H, hl, k, s, τ => by
      obtain ⟨hs, hT, hcp⟩ := H x (by simp)
      have h1 := cg_le {} x k
      have h2 := cgAndVia_le m t tv (y :: z :: r) (fun x _ m k => cg_le m x k) (cg {} x k).2
      have ih := fun s τ => andVia_does m t tv (y :: z :: r) (by simp) (fun w hw => H w (List.mem_cons_of_mem _ hw))
        (fun w hw => hl w (by rw [List.getLast?_cons_cons]; exact hw)) (cg {} x k).2 s τ
      have e : runAnd W (x :: y :: z :: r) s = (run W x s).bind fun p => if truth W p.1 = true then runAnd W (y :: z :: r) p.2 else some p := by
        rw [runAnd]; simp
      have e2 : cgAndVia m t tv (x :: y :: z :: r) k =
          ((cg {} x k).1 ++ sop .andand ++ (cgAndVia m t tv (y :: z :: r) (cg {} x k).2).1, (cgAndVia m t tv (y :: z :: r) (cg {} x k).2).2) := by
        rw [cgAndVia]
      have e3 : trAndVia m t tv (x :: y :: z :: r) k =
          (tr {} x k :: (trAndVia m t tv (y :: z :: r) (cg {} x k).2).1, (trAndVia m t tv (y :: z :: r) (cg {} x k).2).2) := by
        rw [trAndVia]
      have e4 : ∀ k', ∃ c cs, (trAndVia m t tv (y :: z :: r) k').1 = c :: cs := fun k' => ⟨_, _, by rw [trAndVia]⟩
      obtain ⟨c, cs, e4⟩ := e4 (cg {} x k).2
      rw [e, e2, e3]
      dsimp only
      refine ⟨?_, ?_⟩
      · rw [e4, join_and, ← e4]
        have := does_andD (W := W) (g := fun s => (runAnd W (y :: z :: r) s).map fun y => (.bool (truth W y.1), y.2))
          (R := fun τ' => AgreeX tv k (cgAndVia m t tv (y :: z :: r) (cg {} x k).2).2.2 τ τ' ∧
            ∀ v s1, ((run W x s).bind fun p => if truth W p.1 = true then runAnd W (y :: z :: r) p.2 else some p) = some (v, s1) →
              truth W v = true → ∀ Q : (Nat → CVal) → Prop, Q τ' →
                Does (den (trAndVia m t tv (y :: z :: r) (cg {} x k).2).2) s1 τ' (some (.v v, s1)) Q)
          (b := den (joinC .andand (trAndVia m t tv (y :: z :: r) (cg {} x k).2).1))
          (hs k s τ) (fun u s' τ' hr htr hq => ?_) (fun u s' τ' hr htr hq => ?_)
        · rw [asB_asB] at this
          exact this
        · have := (ih s' τ').1
          rw [asB_eq_up] at this
          refine this.mono (fun τ2 h => ⟨?_, ?_⟩)
          · exact AgreeX.trans (hq.x tv) h.1 (Or.inl rfl) h1 h2
          · intro w s1 hw hwt Q hQ
            rw [hr] at hw
            simp only [Option.bind, htr, if_true] at hw
            exact h.2 w s1 hw hwt Q hQ
        · refine ⟨Agree.x (Agree.wide hq (Nat.le_refl _) h2) tv, ?_⟩
          intro w s1 hw hwt
          rw [hr] at hw
          simp only [Option.bind, htr] at hw
          cases hw
          rw [htr] at hwt; cases hwt
      · rcases (ih s τ).2 with h | ⟨id, h3, h4, h5⟩
        · exact Or.inl h
        · exact Or.inr ⟨id, h3, by omega, h5⟩

/-- `||` at a type that is not `bool` -/
theorem orV_does (m : Mode) (t : Ty) (ht : t ≠ .bool) : (l : List N) → l ≠ [] → TypedOr W t l →
    (∀ x ∈ l, (Typed W x → Sim W {} x ∧ Sim W m x) ∧ (∀ t' e, x = .copy t' e → chain e = true → Typed W e → Sim W {} e) ∧
      ∀ ta its, x = .and ta its → ∀ y ∈ its, (Typed W y → Sim W {} y) ∧ ∀ t' e, y = .copy t' e → chain e = true → Typed W e → Sim W {} e) →
    ∀ tv k s τ, Does (den (trOrV m t tv l k)) s τ (up (runOr W l s)) (AgreeX tv k (cgOrV m t tv l k).2 τ)
  | [], h, _, _, _, _, _, _ => absurd rfl h
  | [x], _, hT, H, tv, k, s, τ => by
      simp only [TypedOr] at hT
      simp only [trOrV, cgOrV, runOr]
      exact (((H x (by simp)).1 hT.1).2 k s τ).mono (fun τ' h => h.x tv)
  | x :: y :: r, _, hT, H, tv, k, s, τ => by
      have e : runOr W (x :: y :: r) s = (run W x s).bind fun p => if truth W p.1 = true then some p else runOr W (y :: r) p.2 := by
        rw [runOr]; simp
      have H' := fun z hz => H z (List.mem_cons_of_mem x hz)
      rcases not_and_or x with ⟨ta, its, rfl⟩ | hx
      · rw [typedOr_and] at hT
        obtain ⟨⟨hta, hlen, hTL, hlt⟩, hT2⟩ := hT
        have Hi := (H (.and ta its) (by simp)).2.2 ta its rfl
        have hav := andVia_does m t tv its hlen (fun z hz => ⟨(Hi z hz).1 (hTL.mem z hz), hTL.mem z hz, fun t' e he hce =>
          (Hi z hz).2 t' e he hce (by have := hTL.mem z hz; subst he; simp only [Typed] at this; exact this.1)⟩) hlt k
        have hle := cgAndVia_le m t tv its (fun x _ m k => cg_le m x k) k
        rw [e, trOrV_and, cgOrV_and]
        generalize cgAndVia m t tv its k = v at *
        generalize trAndVia m t tv its k = c at *
        have ih := orV_does m t ht (y :: r) (by simp) hT2 H' v.2.1 v.2.2
        have h3 := cgOrV_le m t (y :: r) (fun z _ m k => cg_le m z k) (fun _ _ _ _ _ z _ m k => cg_le m z k) v.2.1 v.2.2
        obtain ⟨hv, hf⟩ := hav s τ
        have erun : run W (.and ta its) s = runAnd W its s := by
          rw [run]
          cases runAnd W its s with
          | none => rfl
          | some p => simp [at_other hta]
        rw [erun]
        refine (does_cond (F := fun p => .v (.bool (truth W p.1))) (T := fun p => truth W p.1)
          (ga := fun p => some (.v p.1, p.2)) (gb := fun p => up (runOr W (y :: r) p.2)) (fun _ => rfl)
          (o := runAnd W its s) (hv.of_eq ?_) ?_ ?_).of_eq ?_
        · rfl
        · rintro ⟨u, s1⟩ τ' hr htr hq
          exact hq.2 u s1 hr htr _ (hq.1.wide (Nat.le_refl _) h3)
        · rintro ⟨u, s1⟩ τ' hr _ hq
          exact (ih s1 τ').mono (fun τ2 h => hq.1.trans h hf hle h3)
        · cases runAnd W its s with
          | none => rfl
          | some p =>
              simp only [Option.bind, up]
              cases truth W p.1 <;> rfl
      · rw [typedOr_other t x hx] at hT
        obtain ⟨⟨hTx, htx⟩, hT2⟩ := hT
        obtain ⟨hsx, hcx, _⟩ := H x (by simp)
        have h1 := cg_le {} x k
        have h2 := via_le m t tv x (cg {} x k).1 (cg {} x k).2
        have hf := via_follows m t tv x (cg {} x k).1 k (cg {} x k).2 h1
        have hv := via_does m t tv x k (hsx hTx).1 hTx htx (fun t' e he hce => hcx t' e he hce (by
          subst he; simp only [Typed] at hTx; exact hTx.1)) s τ
        rw [e, trOrV_other m t tv x hx, cgOrV_other m t tv x hx]
        dsimp only
        generalize via m t tv x (cg {} x k).1 (cg {} x k).2 = v at *
        generalize viaC m t tv x (tr {} x k) (cg {} x k).2 = c at *
        have ih := orV_does m t ht (y :: r) (by simp) hT2 H' v.2.1 v.2.2
        have h3 := cgOrV_le m t (y :: r) (fun z _ m k => cg_le m z k) (fun _ _ _ _ _ z _ m k => cg_le m z k) v.2.1 v.2.2
        refine (does_cond (F := fun p => .v p.1) (T := fun p => truth W p.1)
          (ga := fun p => some (.v p.1, p.2)) (gb := fun p => up (runOr W (y :: r) p.2)) (fun _ => rfl)
          (o := run W x s) (hv.of_eq rfl) ?_ ?_).of_eq ?_
        · rintro ⟨u, s1⟩ τ' hr htr hq
          exact hq.2 u s1 hr _ (hq.1.wide (Nat.le_refl _) h3)
        · rintro ⟨u, s1⟩ τ' hr _ hq
          exact (ih s1 τ').mono (fun τ2 h => hq.1.trans h hf (by omega) h3)
        · cases run W x s with
          | none => rfl
          | some p =>
              simp only [Option.bind, up]
              cases truth W p.1 <;> rfl

end Verif.CgMean
