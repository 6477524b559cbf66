import Verif.CgStmt
import Verif.CgMean
import Verif.CgReads

/-!
# C93: what the statements of the language do

Specification.  `exec n` runs a statement, no loop more than `n` times; running out of turns is an
outcome (`timeout`), so a program comes to an end exactly when it does for some `n`.  A jump carries the
number of the block or loop it leaves; `break`, `continue` and `return` are jumps (`continue` leaves the
block that is the body of the loop, `return` the body of the function).
-/

namespace Verif.StmtRun

open Verif.CgText Verif.CgExpr Verif.CgStmt Verif.CgMean

/-- How a statement can end. -/
inductive Out (σ : Type) where
  | norm (s : σ)
  /-- leaves the block or loop, with a value -/
  | leave (h : Nat) (v : Option Val) (s : σ)
  /-- a function did not come back -/
  | hang
  | timeout
deriving Repr

variable (W : World)

/-- Are all of them true?  Stops at the first that is not. -/
def allTrue : List N → M W Bool
  | [], s => some (true, s)
  | c :: r, s => (run W c s).bind fun x => if truth W x.1 then allTrue r x.2 else some (false, x.2)

/-- Is one of them true?  Stops at the first that is. -/
def anyTrue : List N → M W Bool
  | [], s => some (false, s)
  | c :: r, s => (run W c s).bind fun x => if truth W x.1 then some (true, x.2) else anyTrue r x.2

/-- After a computation. -/
def andThen {α σ : Type} (r : Option (α × σ)) (k : α → σ → Out σ) : Out σ :=
  match r with
  | none => .hang
  | some x => k x.1 x.2

/-- The condition of a loop: it ends if it is there and is false. -/
def guard (c : Option N) (k : W.σ → Out W.σ) (s : W.σ) : Out W.σ :=
  match c with
  | none => k s
  | some c => andThen (run W c s) fun v s' => if truth W v then k s' else .norm s'

/-- Expressions for their effect. -/
def steps : List N → (W.σ → Out W.σ) → W.σ → Out W.σ
  | [], k, s => k s
  | e :: r, k, s => andThen (run W e s) fun _ s' => steps r k s'

/-- The block or loop is left. -/
def caught {σ : Type} (h : Option Nat) : Out σ → Out σ
  | .leave h' v s => if h = some h' then .norm s else .leave h' v s
  | o => o

/-- If it ends as usual. -/
def Out.after {σ : Type} (o : Out σ) (k : σ → Out σ) : Out σ :=
  match o with
  | .norm s => k s
  | o => o

/-- The turns of a loop. -/
def turns (body : W.σ → Out W.σ) (post : List N) (pcond cond : Option N) : Nat → W.σ → Out W.σ
  | 0, _ => .timeout
  | n + 1, s => (body s).after (steps W post (guard W pcond (guard W cond (turns body post pcond cond n))))

mutual
/-- **What a statement does.** -/
def exec (n : Nat) : S → W.σ → Out W.σ
  | .expr e, s => andThen (run W e s) fun _ s' => .norm s'
  | .empty, s => .norm s
  | .ite c a b, s => andThen (run W c s) fun v s' => if truth W v then exec n a s' else exec n b s'
  | .and cs b, s => andThen (allTrue W cs s) fun v s' => if v then exec n b s' else .norm s'
  | .or cs b, s => andThen (anyTrue W cs s) fun v s' => if v then .norm s' else exec n b s'
  | .block h items, s => caught h (execL n items s)
  | .loop h init cond body post pcond, s =>
      caught (some h) (steps W init.toList (guard W cond (turns W (exec n body) post pcond cond n)) s)
  -- the block is entered once, before the first turn, if there is one
  | .enter h init cond hp pre body post pcond, s =>
      caught (some h) (steps W init.toList (guard W cond fun s' =>
        (caught hp (execL n pre s')).after (turns W (exec n body) post pcond cond n)) s)
  | .jump h none, s => .leave h none s
  | .jump h (some e), s => andThen (run W e s) fun v s' => .leave h (some v) s'
/-- One after the other. -/
def execL (n : Nat) : List S → W.σ → Out W.σ
  | [], s => .norm s
  | c :: r, s => (exec n c s).after (execL n r)
end

/-! ## What the solver hands over -/

/-- An expression. -/
def okX (e : N) : Prop := CgTree.shape e = true ∧ Typed W e

/-- An expression as a statement: conditionals are statements of their own. -/
def okE (e : N) : Prop := okX W e ∧ match e with
  | .ite _ _ _ _ | .and _ _ | .or _ _ => False
  | _ => True

/-- Arithmetic on 8 bits, of which C++ makes an `int`. -/
def byteOp : N → Bool
  | .bin .u8 _ _ a _ => prim a.ty
  | _ => false

/-- A condition. -/
def okC (e : N) : Prop := okX W e ∧ byteOp e = false

mutual
/-- Is there a jump out of the block? -/
def jumps (h : Nat) : S → Bool
  | .ite _ a b => jumps h a || jumps h b
  | .and _ s | .or _ s => jumps h s
  | .block _ items => jumpsL h items
  | .loop _ _ _ body _ _ => jumps h body
  | .enter _ _ _ _ pre body _ _ => jumpsL h pre || jumps h body
  | .jump h' _ => h' == h
  | .expr _ | .empty => false
def jumpsL (h : Nat) : List S → Bool
  | [] => false
  | s :: r => jumps h s || jumpsL h r
end

mutual
/-- Is the loop left by other means than `break`: from a loop in it (`inner`), or with a value? -/
def far (h : Nat) (inner : Bool) : S → Bool
  | .ite _ a b => far h inner a || far h inner b
  | .and _ s | .or _ s => far h inner s
  | .block _ items => farL h inner items
  | .loop _ _ _ body _ _ => far h true body
  | .enter _ _ _ _ pre body _ _ => farL h inner pre || far h true body
  | .jump h' e => h' == h && (inner || e.isSome)
  | .expr _ | .empty => false
def farL (h : Nat) (inner : Bool) : List S → Bool
  | [] => false
  | s :: r => far h inner s || farL h inner r
end

/-- What a block of one statement holds. -/
def only : S → Option S
  | .block _ [s] => some s
  | .block _ _ => none
  | s => some s

/-- Is it a simple statement, or a loop over one, and so on? -/
def straight : S → Bool
  | .expr _ | .empty | .jump _ _ => true
  | .loop _ _ _ (.block _ [s]) _ _ => straight s
  | .loop _ _ _ (.block _ _) _ _ => false
  | .loop _ _ _ body _ _ => straight body
  | _ => false

/-- As the branch of a conditional or the body of a loop, it is not just such a loop that is left from
within a loop in it (`dangling_label_bug`). -/
def okSub (s : S) : Prop :=
  ∀ h i c b p q, only s = some (.loop h i c b p q) → straight (.loop h i c b p q) = true → far h false b = false

/-- Nothing. -/
def silent (s : S) : Bool :=
  match only s with
  | some .empty => true
  | _ => false

/-- A new block or loop has a number of its own, or is not left. -/
def fresh (h : Option Nat) (hs : List Nat) (left : Nat → Bool) : Prop :=
  ∀ x, h = some x → x ∉ hs ∨ left x = false

mutual
/-- The statement is one the emitter gets right.  `hs` are the blocks around, `ret` is the body of the
function, `rt` what it returns. -/
def ok (ret : Nat) (rt : Ty) (hs : List Nat) : S → Prop
  | .expr e => okE W e
  | .empty => True
  | .ite c a b => okC W c ∧ okSub a ∧ okSub b ∧ ok ret rt hs a ∧ ok ret rt hs b ∧ (silent a = true → silent b = true)
  | .and cs s => cs ≠ [] ∧ (∀ c ∈ cs, okC W c) ∧ okSub s ∧ ok ret rt hs s
  | .or cs s => cs ≠ [] ∧ (∀ c ∈ cs, okC W c) ∧ okSub s ∧ ok ret rt hs s
  | .block h items => fresh h hs (fun x => jumpsL x items) ∧ okL ret rt (h.toList ++ hs) items
  | .loop h init cond body post pcond =>
      h ∉ hs ∧ (∀ e ∈ init, okE W e) ∧ (∀ e ∈ cond, okC W e) ∧ (∀ e ∈ post, okX W e) ∧ (∀ e ∈ pcond, okC W e) ∧
      okSub body ∧ ok ret rt (h :: hs) body ∧
      -- a `do … while` loop has neither of these, is not left from within a loop in it, and has a body
      (pcond.isSome = true → init = none ∧ cond = none ∧ far h false body = false ∧ silent body = false)
  | .enter h init cond hp pre body post pcond =>
      pre ≠ [] ∧ h ∉ hs ∧ (∀ x, hp = some x → x ≠ h ∧ x ∉ hs ∧ jumpsL x pre = false ∧ jumps x body = false) ∧ (∀ e ∈ init, okE W e) ∧
      (∀ e ∈ cond, okC W e) ∧ (∀ e ∈ post, okX W e) ∧ (∀ e ∈ pcond, okC W e) ∧
      okSub body ∧ okL ret rt (hp.toList ++ hs) pre ∧ jumpsL h pre = false ∧ ok ret rt (h :: (hp.toList ++ hs)) body ∧
      (cond.isSome = true → pcond = none) ∧
      (cond.isSome = true ∨ pcond.isSome = true → far h false body = false ∧ silent body = false)
  | .jump h e => h ∈ hs ∧ ∀ x ∈ e, if h = ret then okX W x ∧ x.ty = rt else okE W x
def okL (ret : Nat) (rt : Ty) (hs : List Nat) : List S → Prop
  | [] => True
  | s :: r => ok ret rt hs s ∧ okL ret rt hs r
end

end Verif.StmtRun
