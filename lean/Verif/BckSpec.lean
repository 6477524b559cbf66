import Verif.Bck
/-! # C97: what the borrow checker should prevent

A function runs by taking its branches any way they can go. A write makes references bad; binding a reference makes it good;
using a bad one is what must not happen. Nothing here depends on how the checker works. -/
namespace Verif.Bck

/-- how a part of a function ends -/
inductive Out where
  | normal
  | jump (h : Nat)
  /-- a bad reference was used -/
  | wrong
  deriving DecidableEq

/-- the references that are bad -/
abbrev Bad := Nat → Prop

/-- going round the loop `h`: the condition `X`, then the rest `A`, any number of times; what leaves by `h` is done -/
inductive Iter (X A : Bad → Out → Bad → Prop) (h : Nat) : Bad → Out → Bad → Prop where
  | out {d o d1} : X d o d1 → o ≠ .normal → o ≠ .jump h → Iter X A h d o d1
  | brk {d d1} : X d (.jump h) d1 → Iter X A h d .normal d1
  | done {d d1} : X d .normal d1 → Iter X A h d .normal d1
  | out2 {d d1 o d2} : X d .normal d1 → A d1 o d2 → o ≠ .normal → o ≠ .jump h → Iter X A h d o d2
  | brk2 {d d1 d2} : X d .normal d1 → A d1 (.jump h) d2 → Iter X A h d .normal d2
  | done2 {d d1 d2} : X d .normal d1 → A d1 .normal d2 → Iter X A h d .normal d2
  | again {d d1 d2 o d3} : X d .normal d1 → A d1 .normal d2 → Iter X A h d2 o d3 → Iter X A h d o d3

/-- one thing after another: the second happens if the first ends normally -/
def Then (A B : Bad → Out → Bad → Prop) (d : Bad) (o : Out) (d2 : Bad) : Prop :=
  (A d o d2 ∧ o ≠ .normal) ∨ ∃ d1, A d .normal d1 ∧ B d1 o d2

/-- what running a node can lead to: from the bad references `d`, it ends with `o` and the bad references `d1` -/
def Run (c : Cfg) : Node → Bad → Out → Bad → Prop
  | .skip => fun d o d1 => o = .normal ∧ d1 = d
  | .read v => fun d o d1 => d1 = d ∧ ((o = .wrong ∧ c.copies v = false ∧ d v) ∨ (o = .normal ∧ ¬ (c.copies v = false ∧ d v)))
  | .write w => fun d o d1 => o = .normal ∧ d1 = fun v => d v ∨ v ∈ c.inv w
  | .seq a b => Then (Run c a) (Run c b)
  | .bind v i => Then (Run c i) fun d o d1 => o = .normal ∧ d1 = fun u => d u ∧ u ≠ v
  | .block h b => fun d o d1 => (Run c b d o d1 ∧ o ≠ .jump h) ∨ (Run c b d (.jump h) d1 ∧ o = .normal)
  | .cond x a b => Then (Run c x) fun d o d1 => Run c a d o d1 ∨ Run c b d o d1
  | .opt n => fun d o d1 => (o = .normal ∧ d1 = d) ∨ Run c n d o d1
  | .loop h _ i x a => Then (Run c i) (Iter (Run c x) (Run c a) h)
  | .jump h e => Then (Run c e) fun d o d1 => o = .jump h ∧ d1 = d

/-- the references in scope after a node -/
def after : Node → List Nat → List Nat
  | .bind v i, g => v :: after i g
  | .seq a b, g => after b (after a g)
  | _, g => g

/-- the labels of a node -/
def labels : Node → List Nat
  | .seq a b => labels a ++ labels b
  | .bind _ i => labels i
  | .block h b => h :: labels b
  | .cond x a b => labels x ++ (labels a ++ labels b)
  | .opt n => labels n
  | .loop h _ i x a => h :: (labels i ++ (labels x ++ labels a))
  | .jump _ e => labels e
  | _ => []

/-- The functions the theorem is about. References are used in their scope. And, where the checker goes wrong otherwise (see
`BckBugs.lean`): no jump leaves a loop, by `break` or by `return`; what may be skipped does not jump out (a statement
`if (c) return;` that is not the last of its block is a `cond` by then, with what follows as the other branch, so it is fine);
no reference is bound in the head of a `for`; and the references older than a loop have positions before the loop's start.
`r` is the innermost loop's start, `js` the labels that can be jumped to, `g` the references in scope. -/
def Fine : Start → List Nat → List Nat → Node → Prop
  | _, _, _, .skip => True
  | _, _, g, .read v => v ∈ g
  | _, _, _, .write _ => True
  | r, js, g, .seq a b => Fine r js g a ∧ Fine r js (after a g) b
  | r, js, g, .bind _ i => Fine r js g i
  | r, js, g, .block h b => Fine r (h :: js) g b
  | r, js, g, .cond x a b => Fine r js g x ∧ Fine r js (after x g) a ∧ Fine r js (after x g) b
  | r, _, g, .opt n => Fine r [] g n
  | r, js, g, .loop _ s i x a => Fine r js g i ∧ after i g = g ∧ (∀ v ∈ g, v < s) ∧
      (∀ s0, r = some s0 → s0 ≤ s) ∧
      Fine (some s) [] g x ∧ Fine (some s) [] (after x g) a
  | r, js, g, .jump h e => h ∈ js ∧ Fine r js g e

end Verif.Bck
