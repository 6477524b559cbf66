import Verif.CgHold

/-!
# C92: what is written does what was meant
-/

namespace Verif.CgMean

open Verif.CgText Verif.CgExpr Verif.CppGram Verif.CgTree

variable {W : World}

/-! ## `&&` and `||` as they are -/

/-- `a && b` -/
def andD (a b : D W CVal) : D W CVal :=
  D.seq a fun c => if ctruth W c then D.seq b fun d => D.ret (.v (.bool (ctruth W d))) else D.ret (.v (.bool false))

/-- `a || b` -/
def orD (a b : D W CVal) : D W CVal :=
  D.seq a fun c => if ctruth W c then D.ret (.v (.bool true)) else D.seq b fun d => D.ret (.v (.bool (ctruth W d)))

theorem andD_assoc (a b c : D W CVal) : andD (andD a b) c = andD a (andD b c) := by
  unfold andD
  rw [seq_assoc]
  congr 1
  funext x
  cases ctruth W x with
  | false => simp only [Bool.false_eq_true, if_false]; rw [ret_seq]; rfl
  | true =>
      simp only [if_true]
      rw [seq_assoc, seq_assoc]
      congr 1
      funext y
      rw [ret_seq]
      show (if ctruth W y = true then _ else _) = _
      cases ctruth W y with
      | false => simp only [Bool.false_eq_true, if_false]; rw [ret_seq]; rfl
      | true =>
          simp only [if_true]
          rw [seq_assoc]
          congr 1
          funext z
          rw [ret_seq]
          rfl

theorem orD_assoc (a b c : D W CVal) : orD (orD a b) c = orD a (orD b c) := by
  unfold orD
  rw [seq_assoc]
  congr 1
  funext x
  cases ctruth W x with
  | true => simp only [if_true]; rw [ret_seq]; rfl
  | false =>
      simp only [Bool.false_eq_true, if_false]
      rw [seq_assoc, seq_assoc]
      congr 1
      funext y
      rw [ret_seq]
      show (if ctruth W y = true then _ else _) = _
      cases ctruth W y with
      | true => simp only [if_true]; rw [ret_seq]; rfl
      | false =>
          simp only [Bool.false_eq_true, if_false]
          rw [seq_assoc]
          congr 1
          funext z
          rw [ret_seq]
          rfl

theorem den_and (a b : C) : den (W := W) (.bin .andand a b) = andD (den a) (den b) := by
  rw [den, if_pos rfl]; rfl

theorem den_or (a b : C) : den (W := W) (.bin .oror a b) = orD (den a) (den b) := by
  rw [den, if_neg (by decide), if_pos rfl]; rfl

theorem join_and (c c' : C) (r : List C) :
    den (W := W) (joinC .andand (c :: c' :: r)) = andD (den c) (den (joinC .andand (c' :: r))) := by
  simp only [joinC, List.foldl_cons]
  induction r generalizing c c' with
  | nil => exact den_and _ _
  | cons d r ih =>
      simp only [List.foldl_cons] at ih ⊢
      rw [ih (.bin .andand c c') d, ih c' d, den_and, andD_assoc]

theorem join_or (c c' : C) (r : List C) :
    den (W := W) (joinC .oror (c :: c' :: r)) = orD (den c) (den (joinC .oror (c' :: r))) := by
  simp only [joinC, List.foldl_cons]
  induction r generalizing c c' with
  | nil => exact den_or _ _
  | cons d r ih =>
      simp only [List.foldl_cons] at ih ⊢
      rw [ih (.bin .oror c c') d, ih c' d, den_or, orD_assoc]

/-- as a truth value -/
def asB (o : Option (Val × W.σ)) : Option (CVal × W.σ) := o.map fun x => (.v (.bool (truth W x.1)), x.2)

theorem does_andD {a b : D W CVal} {s : W.σ} {τ : Nat → CVal} {o : Option (Val × W.σ)} {Q R : (Nat → CVal) → Prop}
    {g : W.σ → Option (Val × W.σ)}
    (ha : Does a s τ (up o) Q) (hb : ∀ v s' τ', o = some (v, s') → truth W v = true → Q τ' → Does b s' τ' (up (g s')) R)
    (hq : ∀ v s' τ', o = some (v, s') → truth W v = false → Q τ' → R τ') :
    Does (andD a b) s τ (asB (o.bind fun x => if truth W x.1 then g x.2 else some x)) R := by
  refine (does_seq (o' := fun x => if ctruth W x.1 then asB (g x.2) else some (.v (.bool false), x.2)) ha
    (fun c s' τ' he hq' => ?_)).of_eq ?_
  · cases o with
    | none => cases he
    | some x =>
        cases he
        show Does (if truth W x.1 = true then _ else _) _ _ (if truth W x.1 = true then _ else _) _
        cases ht : truth W x.1 with
        | true =>
            simp only [if_true]
            refine (does_map (hb x.1 x.2 τ' rfl ht hq')).of_eq ?_
            unfold up asB; cases g x.2 <;> rfl
        | false =>
            simp only [Bool.false_eq_true, if_false]
            exact does_ret _ _ _ (hq x.1 x.2 τ' rfl ht hq')
  · cases o with
    | none => rfl
    | some x =>
        show (if truth W x.1 = true then asB (g x.2) else some (.v (.bool false), x.2)) =
          asB (if truth W x.1 = true then g x.2 else some x)
        by_cases ht : truth W x.1 = true
        · rw [if_pos ht, if_pos ht]
        · rw [if_neg ht, if_neg ht]
          rw [Bool.not_eq_true] at ht
          simp only [asB, Option.map, ht]

theorem does_orD {a b : D W CVal} {s : W.σ} {τ : Nat → CVal} {o : Option (Val × W.σ)} {Q R : (Nat → CVal) → Prop}
    {g : W.σ → Option (Val × W.σ)}
    (ha : Does a s τ (up o) Q) (hb : ∀ v s' τ', o = some (v, s') → truth W v = false → Q τ' → Does b s' τ' (up (g s')) R)
    (hq : ∀ v s' τ', o = some (v, s') → truth W v = true → Q τ' → R τ') :
    Does (orD a b) s τ (asB (o.bind fun x => if truth W x.1 then some x else g x.2)) R := by
  refine (does_seq (o' := fun x => if ctruth W x.1 then some (.v (.bool true), x.2) else asB (g x.2)) ha
    (fun c s' τ' he hq' => ?_)).of_eq ?_
  · cases o with
    | none => cases he
    | some x =>
        cases he
        show Does (if truth W x.1 = true then _ else _) _ _ (if truth W x.1 = true then _ else _) _
        cases ht : truth W x.1 with
        | false =>
            simp only [Bool.false_eq_true, if_false]
            refine (does_map (hb x.1 x.2 τ' rfl ht hq')).of_eq ?_
            unfold up asB; cases g x.2 <;> rfl
        | true =>
            simp only [if_true]
            exact does_ret _ _ _ (hq x.1 x.2 τ' rfl ht hq')
  · cases o with
    | none => rfl
    | some x =>
        show (if truth W x.1 = true then some (.v (.bool true), x.2) else asB (g x.2)) =
          asB (if truth W x.1 = true then some x else g x.2)
        by_cases ht : truth W x.1 = true
        · rw [if_pos ht, if_pos ht]
          simp only [asB, Option.map, ht]
        · rw [if_neg ht, if_neg ht]

theorem asB_eq_up (o : Option (Val × W.σ)) : asB o = up (o.map fun x => (.bool (truth W x.1), x.2)) := by
  cases o <;> rfl

/-- running, up to truth -/
theorem asB_asB {g : W.σ → Option (Val × W.σ)} (o : Option (Val × W.σ)) (c : Bool) :
    asB (o.bind fun x => if truth W x.1 = c then (g x.2).map fun y => (.bool (truth W y.1), y.2) else some x) =
    asB (o.bind fun x => if truth W x.1 = c then g x.2 else some x) := by
  cases o with
  | none => rfl
  | some x =>
      simp only [Option.bind]
      split
      · cases g x.2 <;> rfl
      · rfl

theorem asB_asB' {g : W.σ → Option (Val × W.σ)} (o : Option (Val × W.σ)) (c : Bool) :
    asB (o.bind fun x => if truth W x.1 = c then some x else (g x.2).map fun y => (.bool (truth W y.1), y.2)) =
    asB (o.bind fun x => if truth W x.1 = c then some x else g x.2) := by
  cases o with
  | none => rfl
  | some x =>
      simp only [Option.bind]
      split
      · rfl
      · cases g x.2 <;> rfl

/-- `a && b && c` -/
theorem concat_and : (l : List N) → (∀ x ∈ l, Sim W {} x) → 2 ≤ l.length → ∀ k s τ,
    Does (den (joinC .andand (trL {} l k))) s τ (asB (runAnd W l s)) (Agree k (cgConcat {} .andand l k).2 τ)
  | [], _, h, k, s, τ => by simp at h
  | [x], _, h, k, s, τ => by simp at h
  | [x, y], H, _, k, s, τ => by
      have h1 := cg_le {} x k
      have h2 := cg_le {} y (cg {} x k).2
      simp only [trL, join_and, cgConcat, runAnd]
      refine does_andD (g := fun s => run W y s) (H x (by simp) k s τ) (fun v s' τ' _ _ hq => ?_) (fun v s' τ' _ _ hq => ?_)
      · exact (H y (by simp) _ s' τ').mono (fun τ2 h => Agree.trans hq h (Nat.le_refl _) h2 h1 (Nat.le_refl _))
      · exact Agree.wide hq (Nat.le_refl _) h2
  | x :: y :: z :: r, H, _, k, s, τ => by
      have h1 := cg_le {} x k
      have h2 := cgConcat_le {} .andand (y :: z :: r) (fun x _ m k => cg_le m x k) (cg {} x k).2
      have ih := concat_and (y :: z :: r) (fun w hw => H w (List.mem_cons_of_mem _ hw)) (by simp) (cg {} x k).2
      have e : runAnd W (x :: y :: z :: r) s = (run W x s).bind fun p => if truth W p.1 = true then runAnd W (y :: z :: r) p.2 else some p := by
        rw [runAnd]; simp
      have e2 : cgConcat {} .andand (x :: y :: z :: r) k = ((cg {} x k).1 ++ sop .andand ++ (cgConcat {} .andand (y :: z :: r) (cg {} x k).2).1,
          (cgConcat {} .andand (y :: z :: r) (cg {} x k).2).2) := by rw [cgConcat]
      have e3 : trL {} (x :: y :: z :: r) k = tr {} x k :: trL {} (y :: z :: r) (cg {} x k).2 := by rw [trL]
      rw [e, e2, e3]
      have e4 : ∀ k', ∃ c cs, trL {} (y :: z :: r) k' = c :: cs := fun k' => ⟨_, _, by rw [trL]⟩
      obtain ⟨c, cs, e4⟩ := e4 (cg {} x k).2
      rw [e4, join_and, ← e4]
      have := does_andD (W := W) (g := fun s => (runAnd W (y :: z :: r) s).map fun y => (.bool (truth W y.1), y.2))
        (R := Agree k (cgConcat {} .andand (y :: z :: r) (cg {} x k).2).2 τ)
        (b := den (joinC .andand (trL {} (y :: z :: r) (cg {} x k).2)))
        (H x (by simp) k s τ) (fun v s' τ' _ _ hq => ?_) (fun v s' τ' _ _ hq => ?_)
      · rw [asB_asB] at this
        exact this
      · have := ih s' τ'
        rw [asB_eq_up] at this
        exact this.mono (fun τ2 h => Agree.trans hq h (Nat.le_refl _) h2 h1 (Nat.le_refl _))
      · exact Agree.wide hq (Nat.le_refl _) h2

/-- `a || b || c` -/
theorem concat_or : (l : List N) → (∀ x ∈ l, Sim W {} x) → 2 ≤ l.length → ∀ k s τ,
    Does (den (joinC .oror (trL {} l k))) s τ (asB (runOr W l s)) (Agree k (cgConcat {} .oror l k).2 τ)
  | [], _, h, k, s, τ => by simp at h
  | [x], _, h, k, s, τ => by simp at h
  | [x, y], H, _, k, s, τ => by
      have h1 := cg_le {} x k
      have h2 := cg_le {} y (cg {} x k).2
      simp only [trL, join_or, cgConcat, runOr]
      refine does_orD (g := fun s => run W y s) (H x (by simp) k s τ) (fun v s' τ' _ _ hq => ?_) (fun v s' τ' _ _ hq => ?_)
      · exact (H y (by simp) _ s' τ').mono (fun τ2 h => Agree.trans hq h (Nat.le_refl _) h2 h1 (Nat.le_refl _))
      · exact Agree.wide hq (Nat.le_refl _) h2
  | x :: y :: z :: r, H, _, k, s, τ => by
      have h1 := cg_le {} x k
      have h2 := cgConcat_le {} .oror (y :: z :: r) (fun x _ m k => cg_le m x k) (cg {} x k).2
      have ih := concat_or (y :: z :: r) (fun w hw => H w (List.mem_cons_of_mem _ hw)) (by simp) (cg {} x k).2
      have e : runOr W (x :: y :: z :: r) s = (run W x s).bind fun p => if truth W p.1 = true then some p else runOr W (y :: z :: r) p.2 := by
        rw [runOr]; simp
      have e2 : cgConcat {} .oror (x :: y :: z :: r) k = ((cg {} x k).1 ++ sop .oror ++ (cgConcat {} .oror (y :: z :: r) (cg {} x k).2).1,
          (cgConcat {} .oror (y :: z :: r) (cg {} x k).2).2) := by rw [cgConcat]
      have e3 : trL {} (x :: y :: z :: r) k = tr {} x k :: trL {} (y :: z :: r) (cg {} x k).2 := by rw [trL]
      rw [e, e2, e3]
      have e4 : ∀ k', ∃ c cs, trL {} (y :: z :: r) k' = c :: cs := fun k' => ⟨_, _, by rw [trL]⟩
      obtain ⟨c, cs, e4⟩ := e4 (cg {} x k).2
      rw [e4, join_or, ← e4]
      have := does_orD (W := W) (g := fun s => (runOr W (y :: z :: r) s).map fun y => (.bool (truth W y.1), y.2))
        (R := Agree k (cgConcat {} .oror (y :: z :: r) (cg {} x k).2).2 τ)
        (b := den (joinC .oror (trL {} (y :: z :: r) (cg {} x k).2)))
        (H x (by simp) k s τ) (fun v s' τ' _ _ hq => ?_) (fun v s' τ' _ _ hq => ?_)
      · rw [asB_asB'] at this
        exact this
      · have := ih s' τ'
        rw [asB_eq_up] at this
        exact this.mono (fun τ2 h => Agree.trans hq h (Nat.le_refl _) h2 h1 (Nat.le_refl _))
      · exact Agree.wide hq (Nat.le_refl _) h2

end Verif.CgMean
