import Verif.FoldInl
/-!
# C91: conditionals do what they say

`Src.mean` and `E.mean` of `FoldSpec.lean` are the specification.
-/
namespace Verif.Fold

section
variable {S T J : Type} {I : Sem S T J} {cs : Canon → Canon → Option Canon}

/-- Solving. What comes of a conditional runs the same operands in the same order, stops where it should, and gives the same value; and what the
compiler says about it (that it is always true, always false or does not end) is true. -/
theorem conditionals_solved_partial (hcs : CsOk cs) {Γ : List Nat} {s : Src} {type : Ty} {e : E} (hg : SrcGood I Γ s)
    (hu : Uniq Γ fun l => srcCnt l s) (h : solve cs s type = .ok e) :
    e.mean I = s.mean I ∧ FactsAt type.look e.ty (s.mean I) := by
  obtain ⟨h1, h2, _⟩ := solve_ok hcs s type e hg hu h
  exact ⟨h2, h2 ▸ h1.facts⟩

/-- Inlining. -/
theorem conditionals_inlined_partial {ρ : Nat → Ty → E} (hρ : RhoOk I ρ) {Γ : List Nat} {look : Bool} {e e' : E} (hg : Good I Γ look e)
    (h : inl ρ e = .ok e') : e'.mean I = e.mean I ∧ FactsAt look e'.ty (e.mean I) := by
  have st := inl_ok hρ e Γ look e' hg h
  exact ⟨st.mean, st.mean ▸ st.good.facts⟩

/-- Checking borrows. -/
theorem conditionals_checked_partial {Γ : List Nat} {look : Bool} {k : Nat} {e e' : E} (hg : Good I Γ look e) (hu : Uniq Γ fun l => cnt l e)
    (h : bck k e = .ok e') : e'.mean I = e.mean I ∧ FactsAt look e'.ty (e.mean I) := by
  have st := (bck_all (I := I) k).1 Γ look e e' hg hu h
  exact ⟨st.mean, st.mean ▸ st.good.facts⟩

/-- All of it: solved, inlined any number of times, and checked. -/
theorem conditionals_kept_partial (hcs : CsOk cs) {ρs : List (Nat → Ty → E)} (hρ : ∀ ρ ∈ ρs, RhoOk I ρ) {Γ : List Nat} {s : Src} {type : Ty}
    {e1 e2 e3 : E} {k : Nat} (hg : SrcGood I Γ s) (hu : Uniq Γ fun l => srcCnt l s)
    (h1 : solve cs s type = .ok e1) (h2 : ρs.foldlM (fun e ρ => inl ρ e) e1 = .ok e2) (h3 : bck k e2 = .ok e3) :
    e3.mean I = s.mean I ∧ FactsAt type.look e3.ty (s.mean I) := by
  obtain ⟨g1, m1, c1⟩ := solve_ok hcs s type e1 hg hu h1
  have key : ∀ (ρs : List (Nat → Ty → E)) (e : E), (∀ ρ ∈ ρs, RhoOk I ρ) → Good I Γ type.look e → e.mean I = s.mean I →
      (∀ l, cnt l e ≤ srcCnt l s) → ρs.foldlM (fun e ρ => inl ρ e) e = .ok e2 →
      Good I Γ type.look e2 ∧ e2.mean I = s.mean I ∧ ∀ l, cnt l e2 ≤ srcCnt l s := by
    intro ρs
    induction ρs with
    | nil =>
      intro e _ g m c h
      cases ok_inj h
      exact ⟨g, m, c⟩
    | cons ρ ρs ih =>
      intro e hρ g m c h
      rw [List.foldlM_cons] at h
      cases hx : inl ρ e with
      | error x => rw [hx] at h; cases h
      | ok e' =>
        rw [hx] at h
        have st := inl_ok (hρ ρ (by simp)) e Γ _ e' g hx
        exact ih e' (fun r hr => hρ r (List.mem_cons_of_mem _ hr)) st.good (st.mean.trans m) (fun l => Nat.le_trans (st.cnt l) (c l)) h
  obtain ⟨g2, m2, c2⟩ := key ρs e1 hρ g1 m1 c1 h2
  have st := (bck_all (I := I) k).1 Γ type.look e2 e3 g2 (hu.mono c2) h3
  have hm := st.mean.trans m2
  exact ⟨hm, hm ▸ st.good.facts⟩

end

/-! ## Not everything that can be written is accepted: a defect -/

/-- The type of some values. -/
def tNum : Ty := { canon := .other 0 }

/-- A common type only of equal ones. -/
def csEq (a b : Canon) : Option Canon := if a = b then some a else none

/-- `return && x`, where a value is wanted, makes the compiler report a bug in itself (`createIf`, `src/solver.fu` 11451-11457). -/
theorem never_and_bug (n m : Nat) : solve csEq (.and [.leaf (.leaf n tNever), .leaf (.leaf m tNum)]) tNone = .error .bug := by rfl

/-- Where a `bool` is wanted it does not. -/
theorem never_and_bool (n m : Nat) : solve csEq (.and [.leaf (.leaf n tNever), .leaf (.leaf m tNum)]) tBool = .ok (.leaf n tNever) := by rfl

/-! ## Examples -/
namespace Ex

theorem csEq_ok : CsOk csEq where
  never a b h := by
    unfold csEq at h
    split at h
    · injection h with h; exact Or.inl h
    · cases h
  zeroes a b h := by
    unfold csEq at h
    split at h
    · next e => injection h with h; exact ⟨h, e ▸ h⟩
    · cases h

/-- The state is what has been run: `leaf n` is truthy if `n` is odd, and leaves the function if it is at least 100. -/
def I : Sem (List Nat) Nat Unit where
  tt := 1
  lit n := if n = 0 then none else some n
  var _ _ := none
  field _ v := v
  leaf n s := some (n :: s, if n ≥ 100 then .inr () else .inl (if n % 2 = 1 then some n else none))
  call n v s := some (n :: s, .inl v)

/-- `if (a: always true) b && !c else d`, and `a` is a block that is left from the inside. -/
def src : Src :=
  .ite (.leaf (.block (some 5) [.leaf 2 tNum, .jump 5 tNum (.leaf 3 tNum) tNever] { tNum with aT := true }))
    (.and [.leaf (.leaf 5 tNum), .leaf (.leaf 7 tNum)])
    (.or [.leaf (.leaf 8 tNum), .leaf (.leaf 101 tNever)])

/-- What comes of it. -/
def out : E :=
  .block none [.block (some 5) [.leaf 2 tNum, .jump 5 tNum (.leaf 3 tNum) tNever] { tNum with aT := true },
    .ite (.leaf 5 tNum) (.leaf 7 tNum) (.definit (definitType tNum)) (joinTy (.other 0) tNum (definitType tNum))] (joinTy (.other 0) tNum (definitType tNum))

theorem solved : solve csEq src tNone = .ok out := by rfl

theorem good : SrcGood I [] src := by
  simp only [src, SrcGood, SrcGoodL, Good, GoodL, FactsAt, Says]
  simp [E.mean, means, M.seqs, M.seq, M.bind, M.catchJump, M.jumpTo, slot, opaqueM, I, tNum, tNever, Ty.isNever, Ty.clean, Ty.boolval, below]

theorem uniq : Uniq [] fun l => srcCnt l src := by
  intro l
  refine ⟨?_, fun h => by cases h⟩
  simp only [src, srcCnt, srcCntL, cnt, cntL]
  split <;> omega

/-- It is as `conditionals_solved_partial` says: `2 3 5 7` are run, the value is 7. -/
example : out.mean I = src.mean I := (conditionals_solved_partial csEq_ok good uniq solved).1
example : src.mean I [] = some ([7, 5, 3, 2], .val (some 7)) := by rfl

/-- Inlined with a copy of what is referred to. -/
def ρ (n : Nat) (t : Ty) : E := .copy (.leaf n t) t

theorem rho_ok : RhoOk I ρ where
  good _ _ _ h := ⟨h.mean (mean_copy ..), FactsAt.mono h below_true⟩
  mean _ _ := mean_copy ..
  never _ _ h := h
  cnt _ _ _ := rfl

/-- Inlined and checked. -/
def out2 : E :=
  .block none [.block (some 5) [.copy (.leaf 2 tNum) tNum, .jump 5 tNum (.copy (.leaf 3 tNum) tNum) tNever] { tNum with aT := true },
    .ite (.copy (.leaf 5 tNum) tNum) (.copy (.leaf 7 tNum) tNum) (.definit (definitType tNum)) (joinTy (.other 0) tNum (definitType tNum))]
    (joinTy (.other 0) tNum (definitType tNum))

theorem inlined : [ρ].foldlM (fun e ρ => inl ρ e) out = .ok out2 := by rfl
theorem checked : bck 10 out2 = .ok out2 := by rfl

example : out2.mean I = src.mean I :=
  (conditionals_kept_partial csEq_ok (ρs := [ρ]) (by intro r hr; simp at hr; subst hr; exact rho_ok) good uniq solved inlined checked).1

/-- Checking borrows folds what is known by then: `a || b && c` with `a` always false and `b` always true. -/
def tree : E :=
  .or [.leaf 2 { tNum with aF := true }, .and [.leaf 5 { tNum with aT := true }, .leaf 8 tNum] tBool] tBool

theorem folded : bck 20 tree = .ok (.block none [.leaf 2 { tNum with aF := true },
    .block none [.leaf 5 { tNum with aT := true }, .leaf 8 tNum] tNum] tBool) := by rfl

theorem tree_good : Good I [] true tree := by
  simp only [tree, Good, GoodL, FactsAt, Says]
  simp [E.mean, means, M.or, M.and, M.ite, M.bind, M.pure, opaqueM, I, tNum, tBool, Ty.isNever, Ty.clean]

example : (E.block none [.leaf 2 { tNum with aF := true }, .block none [.leaf 5 { tNum with aT := true }, .leaf 8 tNum] tNum] tBool).mean I =
    tree.mean I :=
  (conditionals_checked_partial tree_good (by intro l; exact ⟨by simp [tree, cnt, cntL], fun h => by cases h⟩) folded).1

end Ex

end Verif.Fold
