import Verif.StmtFlat

/-!
# C93: the C++ written for the body of a function does what the body does

`body_emitted_partial`.  The specification of the language is `StmtRun.execL`, that of C++ is `One` (the
grammar) and `does` (what statements do); `ok` says which bodies.
-/

namespace Verif.StmtMeans

open Verif.CgText Verif.CgExpr Verif.CgStmt Verif.CppGram Verif.CgMean Verif.CppStmt Verif.StmtRun Verif.StmtEval
  Verif.StmtRel Verif.StmtText Verif.StmtSim

variable {W : World}

/-- The body of the function `h` and its C++ end in the same way: both get to the end, both return the
same value, or neither comes back; and they leave all the same behind. -/
def Same (h : Nat) : Out W.σ → CO W → Prop
  | .norm s, .norm st => st.1 = s
  | .leave h' v s, .ret v' st => h' = h ∧ v' = v ∧ st.1 = s
  | .hang, .hang => True
  | .timeout, .timeout => True
  | _, _ => False

/-- What is around the statements of the body. -/
def topEnv (h : Nat) : Env := { ret := h, blocks := [(.bl 0, some h)] }

theorem top_ok (h : Nat) : EnvOK (topEnv h) [h] 1 := by
  refine ⟨by simp [topEnv, Lab.num], fun x hx hne => ?_, by simp [topEnv], by simp [topEnv], by simp [topEnv]⟩
  rw [List.mem_singleton] at hx
  exact absurd hx hne

theorem top_rel {h : Nat} {out : Out W.σ} {o : CO W} (hr : Rel (topEnv h) out o) : Same h out o ∧ (∀ g st, o ≠ .goto g st) := by
  cases hr with
  | norm => exact ⟨rfl, by simp⟩
  | ret => exact ⟨⟨rfl, rfl, rfl⟩, by simp⟩
  | @goto x g v s τ hne hf =>
      have hf : (if some h = some x then some (Lab.bl 0) else none) = some g := hf
      by_cases hx : some h = some x
      · cases hx; exact absurd rfl hne
      · rw [if_neg hx] at hf; cases hf
  | brk _ hb => cases hb
  | cont _ hb => cases hb
  | hang => exact ⟨trivial, by simp⟩
  | timeout => exact ⟨trivial, by simp⟩

theorem after_top {h : Nat} {rt : Ty} {n : Nat} {out : Out W.σ} {o1 o : CO W} (hr : Rel (topEnv h) out o1) :
    thenL rt n [.lab (.bl 0) .skip] o1 o ↔ o = o1 := by
  have hg := (top_rel hr).2
  cases o1 with
  | norm st =>
      show doesL W rt n [.lab (.bl 0) .skip] none st o ↔ _
      rw [doesL_one, does, does]
  | goto g st => exact absurd rfl (hg g st)
  | _ => simp [thenL]

/-- **The C++ of a function body is one statement, read in one way only; however C++ orders the
evaluations it leaves open, it ends as the body does.**  (No bound: `n` is the number of turns after which
a run is given up, and is the same on both sides.) -/
theorem body_emitted_partial (odd : List Sym → Bool) {h : Nat} {rt : Ty} {items : List S} (hok : okL W h rt [h] items) :
    (∃ c, One (cgBody odd h items) c []) ∧
    ∀ c, One (cgBody odd h items) c [] → ∀ n s τ, (∃ o, does W rt n c (s, τ) o) ∧
      ∀ o, does W rt n c (s, τ) o → Same h (execL W n items s) o := by
  have hL : LinesOK W rt (topEnv h) (flatL items) 1 (lines odd (topEnv h) (flatL items) 1 0).t :=
    lines_ok odd (hs := [h]) (fun s hs l k he => claim odd _ s (Nat.lt_succ_self _) _ _ l k he (okL_mem (ok_flat hok) s hs)
      (noEnterL_mem (noEnterL_flat items) s hs)) 1 0 (top_ok h)
  obtain ⟨cl, h1, _, h3⟩ := hL
  have key : ∃ c, One (cgBody odd h items) c [] ∧ ∀ n s τ, Runs (does W rt n c) (s, τ) (Rel (topEnv h) (execL W n items s)) := by
    have et : cgBody odd h items = wrap odd false (flatL items).length 0 (lines odd (topEnv h) (flatL items) 1 0) := by
      unfold cgBody; rw [line]; rfl
    rw [et]
    generalize lines odd (topEnv h) (flatL items) 1 0 = r at h1
    unfold wrap
    simp only [Bool.false_and, Bool.false_eq_true, if_false]
    by_cases hg : r.t.contains (.goto (.bl 0)) = true
    · rw [if_pos hg]
      refine ⟨.seq [.seq cl, .lab (.bl 0) .skip], ?_, fun n s τ => ?_⟩
      · have e : [Tk.lbr, .lbr] ++ r.t ++ [.rbr, .label (.bl 0), .semi, .rbr] =
            .lbr :: (.lbr :: (r.t ++ (.rbr :: .label (.bl 0) :: .semi :: .rbr :: []))) := by simp
        rw [e]
        exact .block (.cons (.block (h1 _ (by simp)).1) (.cons (.lab .skip) .nil))
      · rw [does]
        refine runs_cons (Q := Rel (topEnv h) (execL W n items s)) (by rw [does, ← exec_flat hok]; exact h3 n s τ) fun o1 _ hx => ?_
        exact ⟨⟨o1, (after_top hx).2 rfl⟩, fun o ho => by rw [(after_top hx).1 ho]; exact hx⟩
    · rw [if_neg hg]
      refine ⟨.seq cl, ?_, fun n s τ => by rw [does, ← exec_flat hok]; exact h3 n s τ⟩
      have e : [Tk.lbr] ++ r.t ++ [.rbr] = .lbr :: (r.t ++ (.rbr :: [])) := by simp
      rw [e]
      exact .block (h1 _ (by simp)).1
  obtain ⟨c, hc, hr⟩ := key
  refine ⟨⟨c, hc⟩, fun c' hc' n s τ => ?_⟩
  cases (hc.unique _ _ hc').1
  exact ⟨(hr n s τ).1, fun o ho => (top_rel ((hr n s τ).2 o ho)).1⟩

end Verif.StmtMeans
