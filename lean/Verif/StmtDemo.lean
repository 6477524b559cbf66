import Verif.StmtMeans
import Verif.CgTop

/-!
# C93: a body that meets the hypotheses, and bodies that are written wrong
-/

namespace Verif.StmtMeans

open Verif.CgText Verif.CgExpr Verif.CgStmt Verif.CppGram Verif.CgMean Verif.CppStmt Verif.StmtRun Verif.StmtEval
  Verif.StmtRel Verif.StmtText Verif.StmtSim

/-- a variable -/
abbrev v (x : Nat) : N := .var .u32 x
/-- `x++` -/
abbrev inc (x : Nat) : N := .post .u32 false x
/-- `x--` -/
abbrev dec (x : Nat) : N := .post .u32 true x

/-- ```
for (y = 3; y; y--)                     // 1, its body is 2
{
    z++;
    if (x--) continue;
    while (z) { if (w) break :1; else break; }   // 3, its body is 4
}
while (w) { on enter z++; then w--; }   // 5, the block is 6
y && return z;
return x;
``` -/
def exBody : List S :=
  [.loop 1 (some (.asg .u32 .set 1 (.num .u32 3))) (some (v 1))
    (.block (some 2) [.expr (inc 2), .ite (dec 0) (.jump 2 none) .empty,
      .loop 3 none (some (v 2)) (.block (some 4) [.ite (v 3) (.jump 1 none) (.jump 3 none)]) [] none]) [dec 1] none,
   .enter 5 none (some (v 3)) (some 6) [.expr (inc 2)] (.block none [.expr (dec 3)]) [] none,
   .and [v 1] (.jump 0 (some (v 2))),
   .jump 0 (some (v 0))]

theorem v_ok (x : Nat) (h : x < 10) : okX demo (v x) := ⟨rfl, by simp [Typed, demo, h]⟩
theorem v_okC (x : Nat) (h : x < 10) : okC demo (v x) := ⟨v_ok x h, rfl⟩
theorem post_ok (x : Nat) (d : Bool) (h : x < 10) : okX demo (.post .u32 d x) := ⟨rfl, by simp [Typed, demo, h, isNum]⟩
theorem post_okC (x : Nat) (d : Bool) (h : x < 10) : okC demo (.post .u32 d x) := ⟨post_ok x d h, rfl⟩
theorem post_okE (x : Nat) (d : Bool) (h : x < 10) : okE demo (.post .u32 d x) := ⟨post_ok x d h, trivial⟩

/-- nothing to check: it is no such loop -/
theorem okSub_of {s : S} (h : ∀ x, only s = some x → straight x = false ∨ ∀ h i c b p q, x ≠ .loop h i c b p q) : okSub s := by
  intro h' i c b p q ho hst
  rcases h _ ho with h1 | h1
  · rw [h1] at hst; cases hst
  · exact absurd rfl (h1 _ _ _ _ _ _)

theorem exBody_ok : okL demo 0 .u32 [0] exBody := by
  have hs : okE demo (.asg .u32 .set 1 (.num .u32 3)) := ⟨⟨rfl, by simp [Typed, demo, isNum, N.ty]⟩, trivial⟩
  have hsub : ∀ s : S, (∀ x, only s = some x → ∀ h i c b p q, x ≠ .loop h i c b p q) → okSub s :=
    fun s h => okSub_of fun x hx => Or.inr (h x hx)
  simp only [exBody, okL, ok, and_true, Option.toList, List.cons_append, List.nil_append]
  refine ⟨⟨by simp, ?_, ?_, ?_, by simp, hsub _ (by simp [only]), ⟨by simp [fresh, jumpsL, jumps], post_okE 2 false (by omega), ⟨post_okC 0 true (by omega), hsub _ (by simp [only]), hsub _ (by simp [only]), by simp, by simp [silent, only]⟩, ⟨by simp, by simp, ?_, by simp, by simp, hsub _ (by simp [only]), ⟨by simp [fresh, jumpsL, jumps], v_okC 3 (by omega), hsub _ (by simp [only]), hsub _ (by simp [only]), by simp, by simp, by simp [silent, only]⟩, by simp⟩⟩, by simp⟩, ⟨by simp, by simp, ?_, by simp, ?_, by simp, by simp, hsub _ (by simp [only]), post_okE 2 false (by omega), by simp [jumpsL, jumps], ⟨by simp [fresh], post_okE 3 true (by omega)⟩, by simp, by simp [far, farL, silent, only]⟩, ⟨by simp, ?_, hsub _ (by simp [only]), by simp, ?_⟩, by simp, ?_⟩
  · intro e he; cases he; exact hs
  · intro e he; cases he; exact v_okC 1 (by omega)
  · intro e he; simp only [List.mem_singleton] at he; subst he; exact post_ok 1 true (by omega)
  · intro e he; cases he; exact v_okC 2 (by omega)
  · intro x hx; cases hx; simp [jumpsL, jumps]
  · intro e he; cases he; exact v_okC 3 (by omega)
  · intro e he; simp only [List.mem_singleton] at he; subst he; exact v_okC 1 (by omega)
  · intro e he; cases he; exact ⟨v_ok 2 (by omega), rfl⟩
  · intro e he; cases he; exact ⟨v_ok 0 (by omega), rfl⟩

/-- With `x` one and `w` two: the second turn leaves the loop, and `z` is three. -/
example : ∃ s', execL demo 9 exBody (fun y => if y = 0 then 1 else if y = 3 then 2 else 0) = .leave 0 (some (.u32 3)) s' := ⟨_, rfl⟩

/-- an expression, in the text -/
abbrev c (e : N) : Tk := ex { parens := true } e 0
abbrev st (e : N) : Tk := ex { stmt := true } e 0

/-- its text -/
example : cgBody (fun _ => false) 0 exBody =
    [.lbr, .kfor, .lp, st (.asg .u32 .set 1 (.num .u32 3)), .semi, c (v 1), .semi, ex {} (dec 1) 0, .rp,
      .lbr, st (inc 2), .semi, .kif, .lp, c (dec 0), .rp, .kcont, .semi,
        .kwhile, .lp, c (v 2), .rp, .lbr, .kif, .lp, c (v 3), .rp, .goto (.ll 1), .semi, .kelse, .kbreak, .semi, .rbr, .semi,
      .rbr, .label (.ll 1), .semi,
      .lbr, .kif, .lp, c (v 3), .rp, .lbr, st (inc 2), .semi, .kdo, st (dec 3), .semi, .kwhile, .lp, ex {} (v 3) 0, .rp, .semi, .rbr, .semi, .rbr, .semi,
      .kif, .lp, c (v 1), .rp, .kret, c (v 2), .semi, .kret, c (v 0), .semi, .rbr] := by
  simp [exBody, cgBody, flatL, flat, enterS, initS, line, sub, lines, isIf, ex, exO, nextO, nexts, conds, cgConcat, cg, loopNext, loopText, Env.push,
    Env.name, find, row, term, wrap, curly, postO, comma, texts, stepCond, c, st]

/-! ## What is not so -/

/-- ```
y && z++;
y && z++;
for (; x; x--) :L while (true) while (true) break :L;
return x;
``` -/
def exDangling : List S :=
  [.and [v 1] (.expr (inc 2)), .and [v 1] (.expr (inc 2)),
   .loop 1 none (some (v 0))
     (.loop 2 none (some (.flag true)) (.loop 3 none (some (.flag true)) (.jump 2 none) [] none) [] none) [dec 0] none,
   .jump 0 (some (v 0))]

/-- The same, but it leaves the outer loop: `:L for (; x; x--) while (true) while (true) break :L;`
(`if (y) z++; else {}` is written as `y && z++` is, but takes one more label). -/
def exOuter : List S :=
  [.ite (v 1) (.expr (inc 2)) .empty, .ite (v 1) (.expr (inc 2)) .empty,
   .loop 2 none (some (v 0))
     (.block none [.loop 1 none (some (.flag true)) (.loop 3 none (some (.flag true)) (.jump 2 none) [] none) [] none]) [dec 0] none,
   .jump 0 (some (v 0))]

theorem dangling_text : cgBody (fun _ => false) 0 exDangling = cgBody (fun _ => false) 0 exOuter := by
  simp [exDangling, exOuter, cgBody, flatL, flat, line, sub, lines, isIf, ex, exO, nextO, nexts, conds, cgConcat, cg, loopNext,
    loopText, Env.push, Env.name, find, row, term, wrap, curly, postO, comma, texts]

theorem exOuter_ok : okL demo 0 .u32 [0] exOuter := by
  have hsub : ∀ s : S, (∀ x, only s = some x → ∀ h i c b p q, x ≠ .loop h i c b p q) → okSub s :=
    fun s h => okSub_of fun x hx => Or.inr (h x hx)
  have hflag : okC demo (.flag true) := ⟨⟨rfl, by simp [Typed]⟩, rfl⟩
  have hif : ok demo 0 .u32 [0] (.ite (v 1) (.expr (inc 2)) .empty) := by
    rw [ok]
    exact ⟨v_okC 1 (by omega), hsub _ (by simp [only]), hsub _ (by simp [only]), by rw [ok]; exact post_okE 2 false (by omega), by simp [ok],
      by simp [silent, only]⟩
  rw [exOuter, okL, okL, okL, okL, okL]
  refine ⟨hif, hif, ?_, ?_, trivial⟩
  · simp only [okL, ok, and_true, Option.toList, List.nil_append]
    refine ⟨by simp, by simp, ?_, ?_, by simp, ?_, ⟨by simp [fresh], ⟨by simp, by simp, ?_, by simp, by simp, ?_, ⟨by simp, by simp, ?_, by simp, by simp, hsub _ (by simp [only]), by simp, by simp⟩, by simp⟩⟩, by simp⟩
    · intro e he; cases he; exact v_okC 0 (by omega)
    · intro e he; simp only [List.mem_singleton] at he; subst he; exact post_ok 0 true (by omega)
    · intro h i c b p q ho _; cases ho; rfl
    · intro e he; cases he; exact hflag
    · intro h i c b p q ho _; cases ho; rfl
    · intro e he; cases he; exact hflag
  · rw [ok]
    refine ⟨by simp, ?_⟩
    intro e he; cases he; exact ⟨v_ok 0 (by omega), rfl⟩

/-- **A `break` out of two loops that are the body of a third leaves all three**: no curlies are written
around the body, so the label is behind the outermost loop. -/
theorem dangling_label_bug : (∃ c, One (cgBody (fun _ => false) 0 exDangling) c []) ∧
    ¬ ∀ c, One (cgBody (fun _ => false) 0 exDangling) c [] → ∀ n s τ o, does demo .u32 n c (s, τ) o → Same 0 (execL demo n exDangling s) o := by
  rw [dangling_text]
  obtain ⟨⟨c, hc⟩, h⟩ := body_emitted_partial (fun _ => false) exOuter_ok
  refine ⟨⟨c, hc⟩, fun hall => ?_⟩
  obtain ⟨⟨o, ho⟩, h2⟩ := h c hc 5 (fun y => if y = 0 then 1 else 0) (fun _ => .int 0)
  have h1 := hall c hc 5 (fun y => if y = 0 then 1 else 0) (fun _ => .int 0) o ho
  have h2 := h2 o ho
  have e1 : ∃ s', execL demo 5 exDangling (fun y => if y = 0 then 1 else 0) = .leave 0 (some (.u32 0)) s' := ⟨_, rfl⟩
  have e2 : ∃ s', execL demo 5 exOuter (fun y => if y = 0 then 1 else 0) = .leave 0 (some (.u32 1)) s' := ⟨_, rfl⟩
  obtain ⟨s1, e1⟩ := e1
  obtain ⟨s2, e2⟩ := e2
  rw [e1] at h1
  rw [e2] at h2
  cases o with
  | ret w st =>
      have e := h1.2.1.symm.trans h2.2.1
      cases e
  | _ => exact h1

/-- `do { x--; while (y) break :L; } while (x)` with `:L` on the `do` -/
def exDoLabel : List S :=
  [.loop 1 none none (.block (some 2) [.expr (dec 0), .loop 3 none (some (v 1)) (.jump 1 none) [] none]) [] (some (v 0))]

/-- **A `do … while` that is left from a loop in it is not C++**: the label is written where the
semicolon goes. -/
theorem do_label_bug : ¬ ∃ c, One (cgBody (fun _ => false) 0 exDoLabel) c [] := by
  have e : cgBody (fun _ => false) 0 exDoLabel =
      [.lbr, .kdo, .lbr, st (dec 0), .semi, .kwhile, .lp, c (v 1), .rp, .goto (.ll 1), .semi, .rbr,
        .kwhile, .lp, ex {} (v 0) 0, .rp, .label (.ll 1), .semi, .rbr] := by
    simp [exDoLabel, cgBody, flatL, flat, line, sub, lines, ex, exO, nextO, nexts, cg, loopNext, stepCond,
      loopText, Env.push, Env.name, find, row, term, wrap, curly]
  rw [e]
  rintro ⟨c, h⟩
  cases h with
  | block h =>
      cases h with
      | cons h h' =>
          cases h with
          | dow h =>
              cases h with
              | block h =>
                  cases h with
                  | cons h h2 =>
                      cases h with
                      | ex =>
                          cases h2 with
                          | cons h h2 =>
                              cases h with
                              | wh h => cases h with
                                  | goto => cases h2 with
                                      | cons h h2 => cases h

/-- `do {} while (x--)` -/
def exDoEmpty : List S := [.loop 1 none none .empty [] (some (dec 0))]

/-- **A `do … while` without a body is not C++.** -/
theorem do_empty_bug : ¬ ∃ c, One (cgBody (fun _ => false) 0 exDoEmpty) c [] := by
  have e : cgBody (fun _ => false) 0 exDoEmpty = [.lbr, .kdo, .kwhile, .lp, ex {} (dec 0) 0, .rp, .semi, .rbr] := by
    simp [exDoEmpty, cgBody, flatL, flat, line, sub, lines, ex, nextO, nexts, cg, loopNext, stepCond,
      loopText, Env.push, row, term, wrap, curly]
  rw [e]
  rintro ⟨c, h⟩
  cases h with
  | block h =>
      cases h with
      | cons h h' =>
          cases h with
          | dow h =>
              cases h with
              | wh h => cases h

/-- `if (x) {} else y++;` where the first branch is a statement of which nothing is written -/
def exIfEmpty : List S := [.ite (v 0) .empty (.expr (inc 1))]

/-- **A branch of which nothing is written, before an `else`, is not C++.** -/
theorem if_empty_bug : ¬ ∃ c, One (cgBody (fun _ => false) 0 exIfEmpty) c [] := by
  have e : cgBody (fun _ => false) 0 exIfEmpty = [.lbr, .kif, .lp, c (v 0), .rp, .kelse, st (inc 1), .semi, .rbr] := by
    simp [exIfEmpty, cgBody, flatL, flat, line, sub, lines, isIf, ex, cg, Env.push, row, term, wrap, curly]
  rw [e]
  rintro ⟨c, h⟩
  cases h with
  | block h =>
      cases h with
      | cons h h' =>
          cases h with
          | ite h => cases h
          | itel h => cases h

end Verif.StmtMeans
