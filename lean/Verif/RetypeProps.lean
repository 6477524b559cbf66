import Verif.Retype
/-!
# The type of a literal is changed to the one wanted: C110
-/
namespace Verif.Retype
open Verif Verif.IntType
open Verif.Intlit (Lit)

/-! ## Specification -/

/-- `n'` is `n` with type `t` wherever its value may come from: only literals and what is empty give it, the literals are
the same, each int is one that the type holds (`f64` up to 2^53), each real has a type for reals, each word the type for
text or one that has that word. -/
inductive Retyped (member : T → Str → Option T) (t : T) : Node → Node → Prop
  | definit {ty} : Retyped member t (.definit ty) (.emptied (.definit ty) t)
  | zeroes {n} : n.ty = .zeroes → Retyped member t n (.emptied n t)
  | int {l ty b} : t = .num b → (l.Valid → (b.prim = .f64 → l.abs ≤ 2 ^ 53) → b.prim.Holds l.val) →
      Retyped member t (.int l ty) (.int l t)
  | real {ty} : t = .num ⟨none, .f32⟩ ∨ t = .num ⟨none, .f64⟩ → Retyped member t (.real ty) (.real t)
  | str {v ty} : t = .string ∨ (∃ e, member e v = some t) → Retyped member t (.str v ty) (.str v t)
  | ite {c l r l' r' ty} : Retyped member t l l' → Retyped member t r r' → Retyped member t (.ite c l r ty) (.ite c l' r' t)
  | block {pre last last' ty} : Retyped member t last last' → Retyped member t (.block false pre last ty) (.block false pre last' t)
  | argid {i i' ty} : Retyped member t i i' → Retyped member t (.argid i ty) (.argid i' t)

/-- Wherever the value may come from there is an int that suits `b`, or what is empty. -/
inductive AllSuit (b : Prim) : Node → Prop
  | definit {ty} : AllSuit b (.definit ty)
  | zeroes {n} : n.ty = .zeroes → AllSuit b n
  | int {l k} : l.Valid → Accepted l → Suits l b → AllSuit b (.int l (.num k))
  | ite {c l r ty} : AllSuit b l → AllSuit b r → AllSuit b (.ite c l r ty)
  | block {pre last ty} : AllSuit b last → AllSuit b (.block false pre last ty)
  | argid {i ty} : AllSuit b i → AllSuit b (.argid i ty)

/-! ## Proofs -/

theorem super_of {a b r : T} (h : trySuper a b = some r) : (a = r ∨ a = .zeroes) ∧ (b = r ∨ b = .zeroes) := by
  unfold trySuper at h
  split at h
  · rename_i e; cases h; exact ⟨.inl rfl, .inl e.symm⟩
  · split at h
    · rename_i e; cases h; exact ⟨.inr e, .inl rfl⟩
    · split at h
      · rename_i e; cases h; exact ⟨.inl rfl, .inr e⟩
      · cases h

theorem apply_of_try (member : T → Str → Option T) (hm : ∀ e v, member e v ≠ some .zeroes) (n : Node) (e q r : T)
    (h : tryRetyping member n e = some (some q)) (hq : q = r ∨ q = .zeroes) : ∃ n', applyRetype n r = some n' ∧ Retyped member r n n' := by
  induction n generalizing q with
  | int l ty =>
    unfold tryRetyping at h
    unfold applyRetype
    by_cases hz : (Node.int l ty).isDefinit ∨ (Node.int l ty).ty = .zeroes
    · rw [if_pos hz]
      exact ⟨_, rfl, .zeroes (hz.resolve_left (by simp [Node.isDefinit]))⟩
    · rw [if_neg hz] at h ⊢
      dsimp only at h ⊢
      split at h
      · cases hs : solveInt l.text e.want with
        | none => rw [hs] at h; cases h
        | some x =>
          rw [hs] at h
          simp only [Option.map_some, Option.some.injEq] at h
          subst h
          have hr : r = .num x.1 := (hq.resolve_right (by simp)).symm
          exact ⟨_, rfl, .int hr (fun hv hf => C106_holds_partial l hv e.want x.1 x.2 hs hf)⟩
      · cases h
  | real ty =>
    unfold tryRetyping at h
    unfold applyRetype
    by_cases hz : (Node.real ty).isDefinit ∨ (Node.real ty).ty = .zeroes
    · rw [if_pos hz]
      exact ⟨_, rfl, .zeroes (hz.resolve_left (by simp [Node.isDefinit]))⟩
    · rw [if_neg hz] at h ⊢
      dsimp only at h ⊢
      split at h
      · simp only [Option.some.injEq] at h
        subst h
        have hr := (hq.resolve_right (by simp)).symm
        refine ⟨_, rfl, .real ?_⟩
        rw [hr]
        unfold solveReal
        split
        · exact .inl rfl
        · exact .inr rfl
      · cases h
  | str v ty =>
    unfold tryRetyping at h
    unfold applyRetype
    by_cases hz : (Node.str v ty).isDefinit ∨ (Node.str v ty).ty = .zeroes
    · rw [if_pos hz]
      exact ⟨_, rfl, .zeroes (hz.resolve_left (by simp [Node.isDefinit]))⟩
    · rw [if_neg hz] at h ⊢
      dsimp only at h ⊢
      simp only [Option.some.injEq] at h
      unfold solveString at h
      refine ⟨_, rfl, .str ?_⟩
      cases hl : member e v with
      | none =>
        rw [hl] at h; subst h
        exact .inl (hq.resolve_right (by simp)).symm
      | some t =>
        rw [hl] at h
        dsimp only at h
        subst h
        have hr := hq.resolve_right (fun x => hm e v (by rw [hl, x]))
        exact .inr ⟨e, by rw [hl, hr]⟩
  | definit ty =>
    unfold applyRetype
    rw [if_pos (.inl rfl)]
    exact ⟨_, rfl, .definit⟩
  | ite c l r' ty _ ihl ihr =>
    unfold tryRetyping at h
    unfold applyRetype
    by_cases hz : (Node.ite c l r' ty).isDefinit ∨ (Node.ite c l r' ty).ty = .zeroes
    · rw [if_pos hz]
      exact ⟨_, rfl, .zeroes (hz.resolve_left (by simp [Node.isDefinit]))⟩
    · rw [if_neg hz] at h ⊢
      dsimp only at h ⊢
      cases h1 : tryRetyping member l e with
      | none => rw [h1] at h; cases h
      | some a =>
        cases h2 : tryRetyping member r' e with
        | none => rw [h1, h2] at h; cases h
        | some b =>
          rw [h1, h2] at h
          simp only [Option.bind_eq_bind, Option.bind_some] at h
          cases a with
          | none => cases h
          | some a =>
            cases b with
            | none => cases h
            | some b =>
              dsimp only at h
              simp only [Option.some.injEq] at h
              obtain ⟨ha, hb⟩ := super_of h
              obtain ⟨l', e1, k1⟩ := ihl a h1 (by rcases ha with rfl | rfl <;> simp_all)
              obtain ⟨r'', e2, k2⟩ := ihr b h2 (by rcases hb with rfl | rfl <;> simp_all)
              exact ⟨_, by rw [e1, e2]; rfl, .ite k1 k2⟩
  | block used pre last ty ih =>
    unfold tryRetyping at h
    unfold applyRetype
    by_cases hz : (Node.block used pre last ty).isDefinit ∨ (Node.block used pre last ty).ty = .zeroes
    · rw [if_pos hz]
      exact ⟨_, rfl, .zeroes (hz.resolve_left (by simp [Node.isDefinit]))⟩
    · rw [if_neg hz] at h ⊢
      dsimp only at h ⊢
      cases used with
      | true => simp at h
      | false =>
        obtain ⟨l', e1, k1⟩ := ih q (by simpa using h) hq
        exact ⟨_, by rw [e1]; rfl, .block k1⟩
  | emptyBlock used ty =>
    unfold tryRetyping at h
    unfold applyRetype
    by_cases hz : (Node.emptyBlock used ty).isDefinit ∨ (Node.emptyBlock used ty).ty = .zeroes
    · rw [if_pos hz]
      exact ⟨_, rfl, .zeroes (hz.resolve_left (by simp [Node.isDefinit]))⟩
    · rw [if_neg hz] at h; simp at h
  | argid i ty ih =>
    unfold tryRetyping at h
    unfold applyRetype
    by_cases hz : (Node.argid i ty).isDefinit ∨ (Node.argid i ty).ty = .zeroes
    · rw [if_pos hz]
      exact ⟨_, rfl, .zeroes (hz.resolve_left (by simp [Node.isDefinit]))⟩
    · rw [if_neg hz] at h ⊢
      dsimp only at h ⊢
      obtain ⟨l', e1, k1⟩ := ih q h hq
      exact ⟨_, by rw [e1]; rfl, .argid k1⟩
  | other k ty =>
    unfold tryRetyping at h
    unfold applyRetype
    by_cases hz : (Node.other k ty).isDefinit ∨ (Node.other k ty).ty = .zeroes
    · rw [if_pos hz]
      exact ⟨_, rfl, .zeroes (hz.resolve_left (by simp [Node.isDefinit]))⟩
    · rw [if_neg hz] at h; simp at h
  | emptied k ty _ =>
    unfold tryRetyping at h
    unfold applyRetype
    by_cases hz : (Node.emptied k ty).isDefinit ∨ (Node.emptied k ty).ty = .zeroes
    · rw [if_pos hz]
      exact ⟨_, rfl, .zeroes (hz.resolve_left (by simp [Node.isDefinit]))⟩
    · rw [if_neg hz] at h; simp at h

/-- **C110.** If the solver finds that an expression can have another type, giving it that type never fails, and all the
values it may have are of that type and held by it. -/
theorem C110_retyped (member : T → Str → Option T) (hm : ∀ e v, member e v ≠ some .zeroes) (n : Node) (e r : T)
    (h : tryRetyping member n e = some (some r)) : ∃ n', applyRetype n r = some n' ∧ Retyped member r n n' :=
  apply_of_try member hm n e r r h (.inl rfl)

/-- **C110.** If the ints an expression may have all suit the number type that is wanted, that is the type found. -/
theorem C110_wanted (member : T → Str → Option T) (n : Node) (t : Ty) (hs : AllSuit t.prim n) :
    tryRetyping member n (.num t) = some (some (.num t)) := by
  have zero : ∀ n : Node, n.isDefinit = true ∨ n.ty = .zeroes → tryRetyping member n (.num t) = some (some (.num t)) := fun n hz => by
    unfold tryRetyping
    rw [if_pos hz]
    simp [definitType]
  induction hs with
  | definit => exact zero _ (.inl rfl)
  | zeroes h => exact zero _ (.inr h)
  | @int l k hv ha hsu =>
    unfold tryRetyping
    obtain ⟨f, -, hf⟩ := C106_wanted l hv ha (T.want (.num t)) ⟨t.user, some t.prim⟩ t.prim ⟨rfl, rfl⟩ hsu
    rw [if_neg (by simp [Node.isDefinit, Node.ty])]
    dsimp only
    rw [if_pos (by simp [T.isArithmetic]), hf]
    rfl
  | @ite c l r ty _ _ ihl ihr =>
    by_cases hz : ty = .zeroes
    · exact zero _ (.inr hz)
    · unfold tryRetyping
      rw [if_neg (by simpa [Node.isDefinit, Node.ty] using hz)]
      simp [ihl, ihr, trySuper]
  | @block pre last ty _ ih =>
    by_cases hz : ty = .zeroes
    · exact zero _ (.inr hz)
    · unfold tryRetyping
      rw [if_neg (by simpa [Node.isDefinit, Node.ty] using hz)]
      simpa using ih
  | @argid i ty _ ih =>
    by_cases hz : ty = .zeroes
    · exact zero _ (.inr hz)
    · unfold tryRetyping
      rw [if_neg (by simpa [Node.isDefinit, Node.ty] using hz)]
      simpa using ih

/-- **C110.** The only error is that of a literal: that the expression has an int that neither suits the type wanted nor
has a default. -/
theorem C110_refused (member : T → Str → Option T) (n : Node) (e : T) (h : tryRetyping member n e = none) :
    ∃ l : Lit, solveInt l.text e.want = none := by
  induction n with
  | int l ty =>
    unfold tryRetyping at h
    split at h
    · cases h
    · dsimp only at h
      split at h
      · exact ⟨l, by simpa using h⟩
      · cases h
  | real ty =>
    unfold tryRetyping at h
    split at h
    · cases h
    · dsimp only at h
      split at h <;> cases h
  | ite c l r ty _ ihl ihr =>
    unfold tryRetyping at h
    split at h
    · cases h
    · dsimp only at h
      cases h1 : tryRetyping member l e with
      | none => exact ihl h1
      | some a =>
        cases h2 : tryRetyping member r e with
        | none => exact ihr h2
        | some b =>
          rw [h1, h2] at h
          simp only [Option.bind_eq_bind, Option.bind_some] at h
          cases a <;> cases b <;> simp at h
  | block used pre last ty ih =>
    unfold tryRetyping at h
    split at h
    · cases h
    · dsimp only at h
      split at h
      · cases h
      · exact ih h
  | argid i ty ih =>
    unfold tryRetyping at h
    split at h
    · cases h
    · exact ih h
  | _ =>
    unfold tryRetyping at h
    split at h <;> cases h

/-- 9223372036854775808, which `u64` alone holds. -/
def big : Lit := ⟨none, 10, [some 9, some 2, some 2, some 3, some 3, some 7, some 2, some 0, some 3, some 6, some 8, some 5, some 4, some 7, some 7,
  some 5, some 8, some 0, some 8], false⟩

def one : Lit := ⟨none, 10, [some 1], false⟩
def threeHundred : Lit := ⟨none, 10, [some 3, some 0, some 0], false⟩

/-- An int that has a type already is an error, and not "cannot", if another one is tried that does not hold it: a second
function of the same name with an `i32` in that place is the end of the build, not passed over. -/
theorem C110_error_partial (member : T → Str → Option T) :
    solveInt big.text (some ⟨none, some .u64⟩) = some (⟨none, .u64⟩, .alwaysTrue) ∧
    tryRetyping member (.int big (.num ⟨none, .u64⟩)) (.num ⟨none, .i32⟩) = none := by
  have h1 : solveInt big.text (some ⟨none, some .u64⟩) = some (⟨none, .u64⟩, .alwaysTrue) := by decide +kernel
  have h2 : solveInt big.text (some ⟨none, some .i32⟩) = none := by decide +kernel
  refine ⟨h1, ?_⟩
  unfold tryRetyping
  rw [if_neg (by simp [Node.isDefinit, Node.ty])]
  dsimp only
  rw [if_pos (by simp [T.isArithmetic])]
  show (solveInt big.text (some ⟨none, some .i32⟩)).map _ = none
  rw [h2]; rfl

/-- A type may be found that is not the one wanted: of ints that do not suit it, their default. -/
theorem C110_other_partial (member : T → Str → Option T) (c : Node) :
    tryRetyping member (.ite c (.int threeHundred (.num ⟨none, .i32⟩)) (.definit (.num ⟨none, .i32⟩)) (.num ⟨none, .i32⟩)) (.num ⟨none, .i8⟩) = some none ∧
    tryRetyping member (.ite c (.int threeHundred (.num ⟨none, .i32⟩)) (.int threeHundred (.num ⟨none, .i32⟩)) (.num ⟨none, .i32⟩)) (.num ⟨none, .i8⟩)
      = some (some (.num ⟨none, .i32⟩)) := by
  have h : solveInt threeHundred.text (some ⟨none, some .i8⟩) = some (⟨none, .i32⟩, .alwaysTrue) := by decide +kernel
  have k : T.want (.num ⟨none, .i8⟩) = some ⟨none, some .i8⟩ := rfl
  constructor <;> simp [tryRetyping, Node.isDefinit, Node.ty, T.isArithmetic, k, h, trySuper, definitType]

/-- `c ? 1 : []` wanted as an `i8`. -/
example (c : Node) : AllSuit .i8 (.ite c (.int one (.num ⟨none, .i32⟩)) (.definit .zeroes) (.num ⟨none, .i32⟩)) :=
  .ite (.int ⟨.inl rfl, by simp [one], by simp [one]⟩ (by constructor <;> decide) ⟨rfl, by constructor <;> decide⟩) .definit

/-! ## Two expressions -/

theorem retyped_ty {member : T → Str → Option T} {t : T} {n n' : Node} (h : Retyped member t n n') : n'.ty = t := by
  cases h <;> rfl

/-- **C110.** Two expressions that are found to have a common type: it is the one their types have in common after at most
one of them has been given another type, as `C110_retyped` says; the other is as it was. -/
theorem C110_common (member : T → Str → Option T) (hm : ∀ e v, member e v ≠ some .zeroes) (a b a' b' : Node) (t : T)
    (h : convertToSuperType member a b = some (.found a' b' t)) :
    trySuper a'.ty b'.ty = some t ∧ (a'.ty = t ∨ a'.ty = .zeroes) ∧ (b'.ty = t ∨ b'.ty = .zeroes) ∧
      ((a' = a ∧ b' = b) ∨ (Retyped member a'.ty a a' ∧ b' = b) ∨ (a' = a ∧ Retyped member b'.ty b b')) := by
  have comm : ∀ x y, trySuper x y = none → x ≠ y ∧ x ≠ .zeroes ∧ y ≠ .zeroes := fun x y e => by
    unfold trySuper at e
    split at e
    · cases e
    · split at e
      · cases e
      · split at e
        · cases e
        · exact ⟨‹_›, ‹_›, ‹_›⟩
  have sym : ∀ x y r, y ≠ .zeroes → trySuper x y = some r → trySuper y x = some r := fun x y r hy e => by
    unfold trySuper at e ⊢
    by_cases hxy : x = y
    · rw [if_pos hxy] at e; rw [if_pos hxy.symm, ← e, hxy]
    · rw [if_neg hxy] at e; rw [if_neg (fun z => hxy z.symm), if_neg hy]
      by_cases hx : x = .zeroes
      · rw [if_pos hx] at e ⊢; exact e
      · rw [if_neg hx, if_neg hy] at e; cases e
  unfold convertToSuperType at h
  cases hs : trySuper a.ty b.ty with
  | some s =>
    rw [hs] at h
    simp only [Option.some.injEq, Common.found.injEq] at h
    obtain ⟨rfl, rfl, rfl⟩ := h
    exact ⟨hs, (super_of hs).1, (super_of hs).2, .inl ⟨rfl, rfl⟩⟩
  | none =>
    obtain ⟨-, ha0, hb0⟩ := comm _ _ hs
    rw [hs] at h
    dsimp only at h
    cases h1 : tryRetyping member a b.ty with
    | none => rw [h1] at h; cases h
    | some ar =>
      cases h2 : tryRetyping member b a.ty with
      | none => rw [h1, h2] at h; cases h
      | some br =>
        rw [h1, h2] at h
        simp only [Option.bind_eq_bind, Option.bind_some] at h
        have viaB : (match br with
            | none => some Common.unfound
            | some r => match trySuper r a.ty with
              | none => some Common.unfound
              | some t => (applyRetype b r).bind fun b => some (Common.found a b t)) = some (.found a' b' t) →
            trySuper a'.ty b'.ty = some t ∧ (a'.ty = t ∨ a'.ty = .zeroes) ∧ (b'.ty = t ∨ b'.ty = .zeroes) ∧
              ((a' = a ∧ b' = b) ∨ (Retyped member a'.ty a a' ∧ b' = b) ∨ (a' = a ∧ Retyped member b'.ty b b')) := fun h => by
          cases br with
          | none => cases h
          | some r =>
            dsimp only at h
            cases h3 : trySuper r a.ty with
            | none => rw [h3] at h; cases h
            | some s =>
              rw [h3] at h
              obtain ⟨x, e, k⟩ := C110_retyped member hm b a.ty r h2
              simp only [e, Option.bind_some, Option.some.injEq, Common.found.injEq] at h
              obtain ⟨rfl, rfl, rfl⟩ := h
              have h4 := sym _ _ _ ha0 h3
              rw [retyped_ty k]
              exact ⟨h4, (super_of h4).1, (super_of h4).2, .inr (.inr ⟨rfl, k⟩)⟩
        cases ar with
        | none => exact viaB h
        | some r =>
          dsimp only at h
          cases hbr : br with
          | some q => rw [hbr, if_pos (by simp)] at h; cases h
          | none =>
            rw [if_neg (by simp [hbr])] at h
            cases h3 : trySuper r b.ty with
            | none => rw [h3] at h; exact viaB h
            | some s =>
              rw [h3] at h
              obtain ⟨x, e, k⟩ := C110_retyped member hm a b.ty r h1
              simp only [e, Option.bind_some, Option.some.injEq, Common.found.injEq] at h
              obtain ⟨rfl, rfl, rfl⟩ := h
              rw [retyped_ty k]
              exact ⟨h3, (super_of h3).1, (super_of h3).2, .inr (.inl ⟨k, rfl⟩)⟩

/-- **C110.** An int beside what has a number type of its own, and cannot have another: if the int suits that type, it is
given it. -/
theorem C110_beside (member : T → Str → Option T) (hm : ∀ e v, member e v ≠ some .zeroes) (a b : Node) (t : Ty) (hs : AllSuit t.prim a)
    (hb : b.ty = .num t) (hr : tryRetyping member b a.ty = some none) :
    ∃ a', convertToSuperType member a b = some (.found a' b (.num t)) ∧ (a' = a ∨ Retyped member (.num t) a a') := by
  unfold convertToSuperType
  cases h1 : trySuper a.ty b.ty with
  | some s =>
    have := (super_of h1).2.resolve_right (by rw [hb]; simp)
    exact ⟨a, by rw [← this, hb], .inl rfl⟩
  | none =>
    have h2 := C110_wanted member a t hs
    obtain ⟨a', e, k⟩ := C110_retyped member hm a (.num t) (.num t) h2
    refine ⟨a', ?_, .inr k⟩
    simp only [hb] at hr ⊢
    rw [h2, hr]
    simp [trySuper, e]

/-- A number that stands for itself. -/
inductive Number : Node → Prop
  | int {l k} : Number (.int l (.num k))
  | real {k} : Number (.real (.num k))

/-- Two numbers as they stand in the program, of different types: they are never given a common type, not even where one
of them suits the other's type (`c ? 1 : 2u`, `c ? 1 : 1.5`), but are said to be ambiguous, or in error. -/
theorem C110_ambiguous_partial (member : T → Str → Option T) (a b : Node) (ha : Number a) (hb : Number b) (h : a.ty ≠ b.ty) :
    convertToSuperType member a b = some .ambiguous ∨ convertToSuperType member a b = none := by
  have num : ∀ n, Number n → ∃ k, n.ty = .num k := fun n hn => by cases hn <;> exact ⟨_, rfl⟩
  have try' : ∀ n k, Number n → tryRetyping member n (.num k) = none ∨ ∃ q, tryRetyping member n (.num k) = some (some q) := fun n k hn => by
    cases hn with
    | @int l k' =>
      unfold tryRetyping
      rw [if_neg (by simp [Node.isDefinit, Node.ty])]
      dsimp only
      rw [if_pos (by simp [T.isArithmetic])]
      cases solveInt l.text (T.num k).want with
      | none => exact .inl rfl
      | some x => exact .inr ⟨_, rfl⟩
    | real =>
      unfold tryRetyping
      rw [if_neg (by simp [Node.isDefinit, Node.ty])]
      dsimp only
      rw [if_pos (by simp [T.isArithmetic])]
      exact .inr ⟨_, rfl⟩
  obtain ⟨ka, ea⟩ := num a ha
  obtain ⟨kb, eb⟩ := num b hb
  have hs : trySuper a.ty b.ty = none := by
    unfold trySuper
    rw [if_neg h, if_neg (by rw [ea]; simp), if_neg (by rw [eb]; simp)]
  unfold convertToSuperType
  rw [hs, ea, eb]
  dsimp only
  rcases try' a kb ha with h1 | ⟨q, h1⟩
  · rw [h1]; exact .inr rfl
  · rcases try' b ka hb with h2 | ⟨q', h2⟩
    · rw [h1, h2]; exact .inr rfl
    · rw [h1, h2]; exact .inl (by simp)

/-- `c ? 1 : x` of an `i8` `x`. -/
example (member : T → Str → Option T) : AllSuit .i8 (.int one (.num ⟨none, .i32⟩)) ∧
    tryRetyping member (.other 7 (.num ⟨none, .i8⟩)) (.num ⟨none, .i32⟩) = some none :=
  ⟨.int ⟨.inl rfl, by simp [one], by simp [one]⟩ (by constructor <;> decide) ⟨rfl, by constructor <;> decide⟩,
    by simp [tryRetyping, Node.isDefinit, Node.ty]⟩

end Verif.Retype
