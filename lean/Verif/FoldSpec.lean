import Verif.Fold
/-!
# What conditionals mean

A value is falsy (`none`) or one of the truthy values: a type has one falsy value, the default one (0, the empty string, all fields falsy).
Running an expression changes the state of the program and gives a value, leaves the block with some label, leaves the function, or
does not end.
-/
namespace Verif.Fold

/-- How running an expression ends. -/
inductive Res (T J : Type) where
  | val (v : Option T)
  | jump (l : Nat) (v : Option T)
  | exit (j : J)

/-- Running something: `none` is that it does not end. -/
abbrev M (S T J : Type) := S → Option (S × Res T J)

namespace M
variable {S T J : Type}

/-- A value, at once. -/
def pure (v : Option T) : M S T J := fun s => some (s, .val v)

/-- First `x`, then what is to be done with its value. -/
def bind (x : M S T J) (f : Option T → M S T J) : M S T J := fun s =>
  match x s with
  | some (s', .val v) => f v s'
  | some (s', .jump l v) => some (s', .jump l v)
  | some (s', .exit j) => some (s', .exit j)
  | none => none

/-- First `x`, then `y`. -/
def seq (x y : M S T J) : M S T J := x.bind fun _ => y

/-- If `x` then `a` else `b`. -/
def ite (x a b : M S T J) : M S T J := x.bind fun v => if v.isSome then a else b

/-- `a && b && ...`: in order, until one is falsy. -/
def and : List (M S T J) → M S T J
  | [] => pure none
  | [x] => x
  | x :: xs => x.ite (M.and xs) (pure none)

/-- `a || b || ...`: in order, until one is truthy. -/
def or : List (M S T J) → M S T J
  | [] => pure none
  | [x] => x
  | x :: xs => x.bind fun v => if v.isSome then pure v else M.or xs

/-- One after the other; the value is that of the last. -/
def seqs : List (M S T J) → M S T J
  | [] => pure none
  | [x] => x
  | x :: xs => x.seq (M.seqs xs)

/-- The block with label `l`: jumps to it end here. -/
def catchJump (l : Option Nat) (x : M S T J) : M S T J := fun s =>
  match x s with
  | some (s', .jump l' v) => if l = some l' then some (s', .val v) else some (s', .jump l' v)
  | r => r

/-- Jump to `l` with the value. -/
def jumpTo (l : Nat) (x : M S T J) : M S T J := x.bind fun v s => some (s, .jump l v)

end M

/-- The meaning of what is not a conditional: `tt` is the value `true`. -/
structure Sem (S T J : Type) where
  tt : T
  lit : Nat → Option T
  var : Nat → S → Option T
  field : Nat → Option T → Option T
  leaf : Nat → S → Option (S × (Option T ⊕ J))
  call : Nat → Option T → S → Option (S × (Option T ⊕ J))

section
variable {S T J : Type} (I : Sem S T J)

/-- As `true` or `false`. -/
def asB (x : M S T J) : M S T J := x.bind fun v => .pure (if v.isSome then some I.tt else none)

/-- The value is not looked at. -/
def discard (x : M S T J) : M S T J := x.seq (.pure none)

/-- As a value for a parameter or the result of a block: nothing, `true` or `false`, or the value. -/
def slot (p : Ty) (x : M S T J) : M S T J := if p.canon = .void then discard x else if p.boolval then asB I x else x

/-- An expression or function that is not looked into; it does not leave blocks of this function. -/
def opaqueM (f : S → Option (S × (Option T ⊕ J))) : M S T J := fun s =>
  match f s with
  | some (s', .inl v) => some (s', .val v)
  | some (s', .inr j) => some (s', .exit j)
  | none => none

mutual
/-- The meaning of a node. The value of a conditional is that of the part of it that gives the value: that it is then made `true` or
`false` is left to what looks at it. Arguments are as the type of the parameter says. -/
def E.mean : E → M S T J
  | .lit n _ => .pure (I.lit n)
  | .bool b _ => .pure (if b then some I.tt else none)
  | .definit _ => .pure none
  | .var n _ => fun s => some (s, .val (I.var n s))
  | .field n e _ => e.mean.bind fun v => .pure (I.field n v)
  | .leaf n _ => opaqueM (I.leaf n)
  | .call n p e _ => (slot I p e.mean).bind fun v => opaqueM (I.call n v)
  | .copy e _ => e.mean
  | .not e _ => e.mean.bind fun v => .pure (if v.isSome then none else some I.tt)
  | .and es _ => .and (means es)
  | .or es _ => .or (means es)
  | .ite c a b _ => c.mean.ite a.mean b.mean
  | .block l es _ => (M.seqs (means es)).catchJump l
  | .jump l p e _ => (slot I p e.mean).jumpTo l

/-- The meanings of nodes. -/
def means : List E → List (M S T J)
  | [] => []
  | e :: es => e.mean :: means es
end

mutual
/-- The meaning of what is written: as any reader of C expects. -/
def Src.mean : Src → M S T J
  | .leaf e => e.mean I
  | .not a => a.mean.bind fun v => .pure (if v.isSome then none else some I.tt)
  | .and as => .and (srcMeans as)
  | .or as => .or (srcMeans as)
  | .ite c a b => c.mean.ite a.mean b.mean

/-- The meanings of the operands. -/
def srcMeans : List Src → List (M S T J)
  | [] => []
  | a :: as => a.mean :: srcMeans as
end

/-- What a type says about a value. -/
def Says (t : Ty) (v : Option T) : Prop :=
  (t.aT = true → v ≠ none) ∧ (t.aF = true → v = none) ∧ (t.canon = .zeroes → v = none) ∧ (t.rel = false → v = none)

/-- What a type says is true of `x`: a `never` gives no value. If nothing looks at the value the rest need not be. The type `zeroes` is not a reference
that has to be to something. -/
def FactsAt (look : Bool) (t : Ty) (x : M S T J) : Prop :=
  (t.canon = .zeroes → t.clean = true) ∧ ∀ s s' v, x s = some (s', .val v) → t.isNever = false ∧ (look = true → Says t v)

/-- Whether anything looks at a value for a slot of this type. -/
def Ty.look (p : Ty) : Bool := p.canon != .void

/-- Whether anything looks at the value of the part that gives the value of a node of this type: not if it never gives one. -/
def below (k : Bool) (t : Ty) : Bool := k && !t.isNever

mutual
/-- A tree in which types are true where it matters, and jumps are to blocks around them. `Γ`: the labels of the blocks around it; `look`: whether
anything looks at the value. A conditional or block is `never` only if the parts that give its value are. -/
def Good (Γ : List Nat) : Bool → E → Prop
  | k, .lit n t => FactsAt k t (E.mean I (.lit n t))
  | k, .bool b t => FactsAt k t (E.mean I (.bool b t))
  | k, .definit t => FactsAt k t (E.mean I (.definit t))
  | k, .var n t => FactsAt k t (E.mean I (.var n t))
  | k, .field n e t => FactsAt k t (E.mean I (.field n e t)) ∧ Good Γ true e
  | k, .leaf n t => FactsAt k t (E.mean I (.leaf n t))
  | k, .call n p e t => FactsAt k t (E.mean I (.call n p e t)) ∧ Good Γ p.look e
  | k, .copy e t => FactsAt k t (E.mean I (.copy e t)) ∧ Good Γ (below k t) e
  | k, .not e t => FactsAt k t (E.mean I (.not e t)) ∧ Good Γ true e
  | k, .and es t => FactsAt k t (E.mean I (.and es t)) ∧ GoodL Γ true k es ∧ es ≠ [] ∧ t.isNever = false
  | k, .or es t => FactsAt k t (E.mean I (.or es t)) ∧ GoodL Γ true k es ∧ es ≠ [] ∧ t.isNever = false
  | k, .ite c a b t => FactsAt k t (E.mean I (.ite c a b t)) ∧ Good Γ true c ∧ Good Γ (below k t) a ∧ Good Γ (below k t) b ∧
    (t.isNever = true → a.ty.isNever = true ∧ b.ty.isNever = true)
  | k, .block l es t => FactsAt k t (E.mean I (.block l es t)) ∧ GoodL (l.toList ++ Γ) false (below k t) es ∧ es ≠ [] ∧
    (t.isNever = true → ∀ e ∈ es.getLast?, e.ty.isNever = true)
  | k, .jump l p e t => FactsAt k t (E.mean I (.jump l p e t)) ∧ Good Γ p.look e ∧ l ∈ Γ

/-- All of them are good: `kl` is about the last. -/
def GoodL (Γ : List Nat) (k kl : Bool) : List E → Prop
  | [] => True
  | e :: es => Good Γ (if es.isEmpty then kl else k) e ∧ GoodL Γ k kl es
end

mutual
/-- The expressions of what is written are good. -/
def SrcGood (Γ : List Nat) : Src → Prop
  | .leaf e => Good I Γ true e
  | .not a => SrcGood Γ a
  | .and as => SrcGoodL Γ as ∧ as ≠ []
  | .or as => SrcGoodL Γ as ∧ as ≠ []
  | .ite c a b => SrcGood Γ c ∧ SrcGood Γ a ∧ SrcGood Γ b

/-- All of them are good. -/
def SrcGoodL (Γ : List Nat) : List Src → Prop
  | [] => True
  | a :: as => SrcGood Γ a ∧ SrcGoodL Γ as
end

end

mutual
/-- How many blocks have this label. -/
def cnt (l : Nat) : E → Nat
  | .lit _ _ | .bool _ _ | .definit _ | .var _ _ | .leaf _ _ => 0
  | .field _ e _ | .call _ _ e _ | .copy e _ | .not e _ | .jump _ _ e _ => cnt l e
  | .and es _ | .or es _ => cntL l es
  | .ite c a b _ => cnt l c + cnt l a + cnt l b
  | .block l' es _ => (if l' = some l then 1 else 0) + cntL l es

/-- In all of them. -/
def cntL (l : Nat) : List E → Nat
  | [] => 0
  | e :: es => cnt l e + cntL l es
end

mutual
/-- How many blocks have this label. -/
def srcCnt (l : Nat) : Src → Nat
  | .leaf e => cnt l e
  | .not a => srcCnt l a
  | .and as | .or as => srcCntL l as
  | .ite c a b => srcCnt l c + srcCnt l a + srcCnt l b

/-- In all of them. -/
def srcCntL (l : Nat) : List Src → Nat
  | [] => 0
  | a :: as => srcCnt l a + srcCntL l as
end

/-- Labels differ, and from those around. -/
def Uniq (Γ : List Nat) (count : Nat → Nat) : Prop := ∀ l, count l ≤ 1 ∧ (l ∈ Γ → count l = 0)

/-- What is needed of the canonical form of the common type (`canon_trySuper`): it is `never` or `zeroes` only if those it is of are. -/
structure CsOk (cs : Canon → Canon → Option Canon) : Prop where
  never : ∀ a b, cs a b = some .never → a = .never ∨ b = .never
  zeroes : ∀ a b, cs a b = some .zeroes → a = .zeroes ∧ b = .zeroes

end Verif.Fold
