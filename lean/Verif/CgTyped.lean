import Verif.CgDoes
import Verif.CgReads

/-!
# C92: expressions have the types they say they have
-/

namespace Verif.CgMean

open Verif.CgText Verif.CgExpr Verif.CppGram Verif.CgTree

variable {W : World}

theorem TypedL.mem : {l : List N} → TypedL W l → ∀ x ∈ l, Typed W x
  | [], _, _, hx => by cases hx
  | e :: r, h, x, hx => by
      simp only [TypedL] at h
      rcases List.mem_cons.1 hx with rfl | hx
      · exact h.1
      · exact TypedL.mem h.2 x hx

theorem typedOr_and (t ta : Ty) (its : List N) (y : N) (r : List N) :
    TypedOr W t (.and ta its :: y :: r) =
      ((ta ≠ .bool ∧ 2 ≤ its.length ∧ TypedL W its ∧ lastTy t its) ∧ TypedOr W t (y :: r)) := by
  rw [TypedOr]

theorem typedOr_other (t : Ty) (x : N) (hx : ∀ a b, x ≠ .and a b) (y : N) (r : List N) :
    TypedOr W t (x :: y :: r) = ((Typed W x ∧ x.ty = t) ∧ TypedOr W t (y :: r)) := by
  cases x <;> first | (rw [TypedOr]; done) | skip
  all_goals first | (rw [TypedOr.eq_def]; done) | skip
  all_goals exact absurd rfl (hx _ _)

/-- the integers -/
theorem val_num {v : Val} {t : Ty} (h : isNum t) (hv : v.ty = t) : (∃ n, v = .u8 n ∧ t = .u8) ∨ ∃ n, v = .u32 n ∧ t = .u32 := by
  cases v with
  | bool b => rcases h with rfl | rfl <;> cases hv
  | u8 n => exact Or.inl ⟨n, rfl, hv.symm⟩
  | u32 n => exact Or.inr ⟨n, rfl, hv.symm⟩
  | obj b n => rcases h with rfl | rfl <;> cases hv

theorem unVal_typed {o : UOp} {v : Val} (h : isNum v.ty) : ∃ w, unVal o v = some w ∧ w.ty = v.ty := by
  rcases val_num h rfl with ⟨n, rfl, _⟩ | ⟨n, rfl, _⟩ <;> cases o <;> exact ⟨_, rfl, rfl⟩

theorem binVal_typed {o : BOp} {v w : Val} (h : isNum v.ty) (hw : w.ty = v.ty) :
    ∃ u, binVal o v w = some u ∧ u.ty = opTy o v.ty := by
  rcases val_num h rfl with ⟨n, rfl, _⟩ | ⟨n, rfl, _⟩
  · rcases val_num (Or.inl hw) rfl with ⟨n', rfl, _⟩ | ⟨n', rfl, _⟩
    · cases o <;> exact ⟨_, rfl, rfl⟩
    · cases hw
  · rcases val_num (Or.inr hw) rfl with ⟨n', rfl, _⟩ | ⟨n', rfl, _⟩
    · cases hw
    · cases o <;> exact ⟨_, rfl, rfl⟩

theorem at_bool (v : Val) : (at' W .bool v).ty = .bool := rfl
theorem at_other {t : Ty} (h : t ≠ .bool) (v : Val) : at' W t v = v := if_neg h

theorem runAnd_ty (t : Ty) : (l : List N) → (∀ x ∈ l, ∀ s v s', run W x s = some (v, s') → v.ty = t) →
    ∀ s v s', runAnd W l s = some (v, s') → v.ty = t
  | [], _, s, v, s', h => by simp [runAnd] at h
  | [x], H, s, v, s', h => by rw [runAnd] at h; exact H x (by simp) s v s' h
  | x :: y :: r, H, s, v, s', h => by
      rw [runAnd] at h
      cases h1 : run W x s with
      | none => rw [h1] at h; cases h
      | some p =>
          rw [h1] at h
          simp only [Option.bind] at h
          split at h
          · exact runAnd_ty t (y :: r) (fun z hz => H z (List.mem_cons_of_mem _ hz)) _ _ _ h
          · cases h; exact H x (by simp) s _ _ h1
      all_goals simp

/-- the value of an `&&` that is true is that of its last operand -/
theorem runAnd_last : (l : List N) → ∀ s v s', runAnd W l s = some (v, s') → truth W v = true →
    ∃ x s0, l.getLast? = some x ∧ run W x s0 = some (v, s')
  | [], s, v, s', h, _ => by simp [runAnd] at h
  | [x], s, v, s', h, _ => by rw [runAnd] at h; exact ⟨x, s, rfl, h⟩
  | x :: y :: r, s, v, s', h, ht => by
      rw [runAnd] at h
      cases h1 : run W x s with
      | none => rw [h1] at h; cases h
      | some p =>
          rw [h1] at h
          simp only [Option.bind] at h
          split at h
          · obtain ⟨z, s0, hz, hr⟩ := runAnd_last (y :: r) _ _ _ h ht
            exact ⟨z, s0, by rw [List.getLast?_cons_cons]; exact hz, hr⟩
          · rename_i hf
            cases h; exact absurd ht hf
      all_goals simp

theorem runOr_ty (t : Ty) (ht : t ≠ .bool) (n : Nat)
    (H : ∀ x : N, sizeOf x < n → Typed W x → ∀ s v s', run W x s = some (v, s') → v.ty = x.ty) :
    (l : List N) → sizeOf l < n → TypedOr W t l → ∀ s v s', runOr W l s = some (v, s') → v.ty = t
  | [], _, _, s, v, s', h => by simp [runOr] at h
  | [x], hn, hT, s, v, s', h => by
      rw [runOr] at h
      simp only [TypedOr] at hT
      rw [H x (by simp at hn; omega) hT.1 s v s' h, hT.2]
  | x :: y :: r, hn, hT, s, v, s', h => by
      have hn' : sizeOf x < n ∧ sizeOf (y :: r) < n := by simp at hn ⊢; omega
      rw [runOr] at h
      cases h1 : run W x s with
      | none => rw [h1] at h; cases h
      | some p =>
          rw [h1] at h
          simp only [Option.bind] at h
          rcases not_and_or x with ⟨ta, its, rfl⟩ | hx
          · rw [typedOr_and] at hT
            split at h
            · rename_i htr
              cases h
              rw [run] at h1
              cases h2 : runAnd W its s with
              | none => rw [h2] at h1; cases h1
              | some q =>
                  rw [h2] at h1
                  simp only [Option.map, at_other hT.1.1, Option.some.injEq, Prod.mk.injEq] at h1
                  obtain ⟨z, s0, hz, hr⟩ := runAnd_last its s q.1 q.2 h2 (by rw [h1.1]; exact htr)
                  rw [← h1.1, H z ?_ (hT.1.2.2.1.mem z (List.mem_of_getLast? hz)) _ _ _ hr, hT.1.2.2.2 z hz]
                  have := List.sizeOf_lt_of_mem (List.mem_of_getLast? hz)
                  have := hn'.1
                  simp at this
                  omega
            · exact runOr_ty t ht n H (y :: r) hn'.2 hT.2 _ _ _ h
          · rw [typedOr_other t x hx] at hT
            split at h
            · cases h
              rw [H x hn'.1 hT.1.1 s _ _ h1, hT.1.2]
            · exact runOr_ty t ht n H (y :: r) hn'.2 hT.2 _ _ _ h
      all_goals simp

/-- **An expression gives a value of its type.** -/
theorem run_ty_aux : ∀ (n : Nat) (e : N), sizeOf e < n → Typed W e → ∀ s v s', run W e s = some (v, s') → v.ty = e.ty := by
  intro n
  induction n with
  | zero => intro e h; omega
  | succ n ih =>
      intro e hn hT s v s' h
      cases e with
      | var t x =>
          simp only [run, Option.some.injEq, Prod.mk.injEq] at h
          rw [← h.1, W.get_ty]; simp only [Typed] at hT; exact hT.symm
      | num t j =>
          simp only [run, Option.some.injEq, Prod.mk.injEq] at h
          simp only [Typed] at hT
          rw [← h.1]
          rcases hT with rfl | rfl <;> rfl
      | flag b => simp only [run, Option.some.injEq, Prod.mk.injEq] at h; rw [← h.1]; rfl
      | fld t e f =>
          simp only [run] at h
          simp only [Typed] at hT
          cases h1 : run W e s with
          | none => rw [h1] at h; cases h
          | some x =>
              rw [h1] at h
              simp only [Option.bind, Option.some.injEq, Prod.mk.injEq] at h
              rw [← h.1, W.field_ty]; exact hT.2.1.symm
      | call t f mask args =>
          simp only [run] at h
          simp only [Typed] at hT
          cases h1 : runL W args s with
          | none => rw [h1] at h; cases h
          | some x =>
              rw [h1] at h
              simp only [Option.bind] at h
              rw [W.call_ty _ _ _ _ _ h]; exact hT.2.1.symm
      | un t o e =>
          simp only [run] at h
          simp only [Typed] at hT
          cases h1 : run W e s with
          | none => rw [h1] at h; cases h
          | some x =>
              rw [h1] at h
              simp only [Option.bind] at h
              have hx := ih e (by simp at hn; omega) hT.1 s x.1 x.2 h1
              cases hp : prim e.ty with
              | true =>
                  rw [hp] at hT h
                  simp only [if_true] at hT h
                  obtain ⟨w, hw, hwt⟩ := unVal_typed (o := o) (v := x.1) (by rw [hx]; exact hT.2.1)
                  rw [hw] at h
                  simp only [Option.map, Option.some.injEq, Prod.mk.injEq] at h
                  rw [← h.1, hwt, hx]; exact hT.2.2.symm
              | false =>
                  rw [hp] at hT h
                  simp at hT h
                  rw [W.unop_ty _ _ _ _ _ h]; exact hT.2.symm
      | bin t o mask a b =>
          simp only [run] at h
          simp only [Typed] at hT
          cases h1 : run W a s with
          | none => rw [h1] at h; cases h
          | some x =>
              rw [h1] at h
              simp only [Option.bind] at h
              have hx := ih a (by simp at hn; omega) hT.1 s x.1 x.2 h1
              cases h2 : run W b x.2 with
              | none => rw [h2] at h; cases h
              | some y =>
                  rw [h2] at h
                  simp only at h
                  have hy := ih b (by simp at hn; omega) hT.2.1 _ y.1 y.2 h2
                  cases hp : prim a.ty with
                  | true =>
                      rw [hp] at hT h
                      simp only [if_true] at hT h
                      obtain ⟨w, hw, hwt⟩ := binVal_typed (o := o) (v := x.1) (w := y.1)
                        (by rw [hx]; exact hT.2.2.2.1) (by rw [hx, hy, hT.2.2.2.2.1])
                      rw [hw] at h
                      simp only [Option.map, Option.some.injEq, Prod.mk.injEq] at h
                      rw [← h.1, hwt, hx]; exact hT.2.2.2.2.2.symm
                  | false =>
                      rw [hp] at hT h
                      simp at hT h
                      rw [W.binop_ty _ _ _ _ _ _ h]; exact hT.2.2.2.symm
      | asg t o x e =>
          simp only [run] at h
          simp only [Typed] at hT
          cases h1 : run W e s with
          | none => rw [h1] at h; cases h
          | some y =>
              rw [h1] at h
              simp only [Option.bind] at h
              have hy := ih e (by simp at hn; omega) hT.1 s y.1 y.2 h1
              have hg : (W.get x y.2).ty = t := by rw [W.get_ty]; exact hT.2.1.symm
              cases o with
              | set =>
                  simp only [asgVal, Option.map, Option.some.injEq, Prod.mk.injEq] at h
                  rw [← h.1, hy]; exact hT.2.2.1
              | add | sub =>
                  simp only [asgVal] at h
                  have hnum := hT.2.2.2 (by simp)
                  first
                  | obtain ⟨w, hw, hwt⟩ := binVal_typed (o := .add) (v := W.get x y.2) (w := y.1)
                      (by rw [hg]; exact hnum) (by rw [hg, hy]; exact hT.2.2.1)
                    rw [hw] at h
                    simp only [Option.map, Option.some.injEq, Prod.mk.injEq] at h
                    rw [← h.1, hwt, hg]; rfl
                  | obtain ⟨w, hw, hwt⟩ := binVal_typed (o := .sub) (v := W.get x y.2) (w := y.1)
                      (by rw [hg]; exact hnum) (by rw [hg, hy]; exact hT.2.2.1)
                    rw [hw] at h
                    simp only [Option.map, Option.some.injEq, Prod.mk.injEq] at h
                    rw [← h.1, hwt, hg]; rfl
      | pre t d x =>
          simp only [run] at h
          simp only [Typed] at hT
          have hg : (W.get x s).ty = t := by rw [W.get_ty]; exact hT.1.symm
          have ho : (one (W.get x s)).ty = (W.get x s).ty := by
            rcases val_num hT.2 hg with ⟨n, e, _⟩ | ⟨n, e, _⟩ <;> rw [e] <;> rfl
          obtain ⟨w, hw, hwt⟩ := binVal_typed (o := if d = true then .sub else .add) (by rw [hg]; exact hT.2) ho
          rw [hw] at h
          simp only [Option.map, Option.some.injEq, Prod.mk.injEq] at h
          rw [← h.1, hwt, hg]
          cases d <;> rfl
      | post t d x =>
          simp only [run] at h
          simp only [Typed] at hT
          have hg : (W.get x s).ty = t := by rw [W.get_ty]; exact hT.1.symm
          cases h2 : binVal (if d = true then .sub else .add) (W.get x s) (one (W.get x s)) with
          | none => rw [h2] at h; cases h
          | some w =>
              rw [h2] at h
              simp only [Option.map, Option.some.injEq, Prod.mk.injEq] at h
              rw [← h.1]; exact hg
      | not e =>
          simp only [run] at h
          cases h1 : run W e s with
          | none => rw [h1] at h; cases h
          | some x =>
              rw [h1] at h
              simp only [Option.map, Option.some.injEq, Prod.mk.injEq] at h
              rw [← h.1]; rfl
      | ite t c a b =>
          simp only [run] at h
          simp only [Typed] at hT
          cases h1 : run W c s with
          | none => rw [h1] at h; cases h
          | some x =>
              rw [h1] at h
              simp only [Option.bind] at h
              by_cases ht : t = .bool
              · subst ht
                cases h2 : (if truth W x.1 = true then run W a x.2 else run W b x.2) with
                | none => rw [h2] at h; cases h
                | some y =>
                    rw [h2] at h
                    simp only [Option.map, Option.some.injEq, Prod.mk.injEq] at h
                    rw [← h.1]; rfl
              · have hab := hT.2.2.2 ht
                split at h
                · cases h2 : run W a x.2 with
                  | none => rw [h2] at h; cases h
                  | some y =>
                      rw [h2] at h
                      simp only [Option.map, Option.some.injEq, Prod.mk.injEq, at_other ht] at h
                      rw [← h.1, ih a (by simp at hn; omega) hT.2.1 _ y.1 y.2 h2]; exact hab.1
                · cases h2 : run W b x.2 with
                  | none => rw [h2] at h; cases h
                  | some y =>
                      rw [h2] at h
                      simp only [Option.map, Option.some.injEq, Prod.mk.injEq, at_other ht] at h
                      rw [← h.1, ih b (by simp at hn; omega) hT.2.2.1 _ y.1 y.2 h2]; exact hab.2
      | and t items =>
          simp only [run] at h
          simp only [Typed] at hT
          cases h1 : runAnd W items s with
          | none => rw [h1] at h; cases h
          | some x =>
              rw [h1] at h
              simp only [Option.map, Option.some.injEq, Prod.mk.injEq] at h
              by_cases ht : t = .bool
              · subst ht; rw [← h.1]; rfl
              · rw [at_other ht] at h
                rw [← h.1]
                refine runAnd_ty t items (fun z hz s v s' hr => ?_) s x.1 x.2 h1
                have := List.sizeOf_lt_of_mem hz
                rw [ih z (by simp at hn; omega) (hT.2.1.mem z hz) s v s' hr]
                exact hT.2.2 ht z hz
      | or t items =>
          simp only [run] at h
          simp only [Typed] at hT
          cases h1 : runOr W items s with
          | none => rw [h1] at h; cases h
          | some x =>
              rw [h1] at h
              simp only [Option.map, Option.some.injEq, Prod.mk.injEq] at h
              by_cases ht : t = .bool
              · subst ht; rw [← h.1]; rfl
              · rw [at_other ht] at h
                rw [← h.1]
                have hT2 := hT.2
                rw [if_neg ht] at hT2
                exact runOr_ty t ht n (fun x hx => ih x hx) items (by simp at hn; omega) hT2 s x.1 x.2 h1
      | copy t e =>
          simp only [run] at h
          simp only [Typed] at hT
          rw [ih e (by simp at hn; omega) hT.1 s v s' h]; exact hT.2

theorem run_ty {e : N} (h : Typed W e) {s : W.σ} {v : Val} {s' : W.σ} (hr : run W e s = some (v, s')) : v.ty = e.ty :=
  run_ty_aux _ e (Nat.lt_succ_self _) h s v s' hr

end Verif.CgMean
