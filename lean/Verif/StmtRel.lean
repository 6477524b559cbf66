import Verif.StmtEval

/-!
# C93: runs of statements, side by side

Tools: `Runs` (a statement can be run, and all the ways it can go are as wanted), how the ways a
statement of the language and its text can end belong together (`Rel`), lists of statements, loops.
-/

namespace Verif.StmtRel

open Verif.CgText Verif.CgExpr Verif.CgStmt Verif.CppGram Verif.CgMean Verif.CppStmt Verif.StmtRun Verif.StmtEval

variable {W : World}

/-- It can be run, and all the ways it can go are so. -/
def Runs (d : Act W) (st : St W) (Q : CO W → Prop) : Prop := (∃ o, d st o) ∧ ∀ o, d st o → Q o

theorem Runs.mono {d : Act W} {st : St W} {Q Q' : CO W → Prop} (h : Runs d st Q) (hq : ∀ o, d st o → Q o → Q' o) : Runs d st Q' :=
  ⟨h.1, fun o ho => hq o ho (h.2 o ho)⟩

theorem runs_is {st : St W} {o : CO W} {Q : CO W → Prop} (h : Q o) : Runs (fun _ o' => o' = o) st Q :=
  ⟨⟨o, rfl⟩, fun _ h' => h' ▸ h⟩

/-- an expression and what comes after, on both sides -/
theorem runs_val {α : Type} {t : List Sym} {view : CVal → α} {f : M W α} (h : Ev t view f) {k : CVal → Act W}
    {K : α → W.σ → Out W.σ} {R : Out W.σ → CO W → Prop} (hh : R .hang .hang)
    (s : W.σ) (τ : Nat → CVal)
    (h1 : ∀ x s', f s = some (x, s') → ∀ c τ', view c = x → Runs (k c) (s', τ') (R (K x s'))) :
    Runs (onVal t k) (s, τ) (R (andThen (f s) K)) := by
  obtain ⟨⟨r, hr⟩, hall⟩ := h s τ
  constructor
  · cases r with
    | none => exact ⟨.hang, none, hr, rfl⟩
    | some y =>
        have e := hall _ hr
        obtain ⟨⟨o, ho⟩, _⟩ := h1 _ _ e.symm y.1 y.2.2 rfl
        exact ⟨o, some y, hr, ho⟩
  · rintro o ⟨r, hr, ho⟩
    have e := hall _ hr
    cases r with
    | none =>
        have e' : f s = none := e.symm
        rw [e']
        cases ho; exact hh
    | some y =>
        have e' : f s = some (view y.1, y.2.1) := e.symm
        rw [e']
        exact (h1 _ _ e' y.1 y.2.2 rfl).2 o ho

theorem andThen_map {α β σ : Type} (r : Option (α × σ)) (p : α → β) (K : β → σ → Out σ) :
    andThen (r.map fun x => (p x.1, x.2)) K = andThen r fun x s => K (p x) s := by
  cases r <;> rfl

/-! ## Lists -/

/-- After the first statements of a list. -/
def thenL (rt : Ty) (n : Nat) (r : List CS) : CO W → CO W → Prop
  | .norm st, o => doesL W rt n r none st o
  | .goto g st, o => doesL W rt n r (some g) st o
  | o1, o => o = o1

theorem doesL_cons {rt n} {c : CS} {r : List CS} {seek : Option Lab} (h : ¬ (seek.isSome ∧ seek ≠ c.label)) {st : St W} {o : CO W} :
    doesL W rt n (c :: r) seek st o ↔ ∃ o1, does W rt n c st o1 ∧ thenL rt n r o1 o := by
  rw [doesL]
  dsimp only
  rw [if_neg h]
  constructor
  · rintro ⟨o1, h1, h2⟩; refine ⟨o1, h1, ?_⟩; cases o1 <;> exact h2
  · rintro ⟨o1, h1, h2⟩; refine ⟨o1, h1, ?_⟩; cases o1 <;> exact h2

theorem doesL_skip {rt n} {c : CS} {r : List CS} {seek : Option Lab} (h : seek.isSome ∧ seek ≠ c.label) {st : St W} {o : CO W} :
    doesL W rt n (c :: r) seek st o ↔ doesL W rt n r seek st o := by
  rw [doesL]
  dsimp only
  rw [if_pos h]

theorem thenL_nil {rt n} {o1 o : CO W} : thenL rt n [] o1 o ↔ o = o1 := by
  cases o1 <;> simp [thenL, doesL]

theorem thenL_append {rt n} (l2 : List CS) : ∀ (l1 : List CS), (∀ seek (st : St W) (o : CO W),
      doesL W rt n (l1 ++ l2) seek st o ↔ ∃ o1, doesL W rt n l1 seek st o1 ∧ thenL rt n l2 o1 o) ∧
    (∀ (o0 o : CO W), thenL rt n (l1 ++ l2) o0 o ↔ ∃ o1, thenL rt n l1 o0 o1 ∧ thenL rt n l2 o1 o)
  | [] => by
      refine ⟨fun seek st o => ?_, fun o0 o => ?_⟩
      · cases seek with
        | none => simp [doesL, thenL]
        | some g => simp [doesL, thenL]
      · simp [thenL_nil]
  | c :: l1 => by
      have ih := thenL_append (rt := rt) (n := n) l2 l1
      have h1 : ∀ seek (st : St W) (o : CO W),
          doesL W rt n (c :: l1 ++ l2) seek st o ↔ ∃ o1, doesL W rt n (c :: l1) seek st o1 ∧ thenL rt n l2 o1 o := by
        intro seek st o
        rw [List.cons_append]
        by_cases h : seek.isSome ∧ seek ≠ c.label
        · rw [doesL_skip h, ih.1]
          constructor <;> rintro ⟨o1, h1, h2⟩
          · exact ⟨o1, (doesL_skip h).2 h1, h2⟩
          · exact ⟨o1, (doesL_skip h).1 h1, h2⟩
        · rw [doesL_cons h]
          constructor
          · rintro ⟨o1, h1, h2⟩
            obtain ⟨o2, h3, h4⟩ := (ih.2 o1 o).1 h2
            exact ⟨o2, (doesL_cons h).2 ⟨o1, h1, h3⟩, h4⟩
          · rintro ⟨o2, h1, h2⟩
            obtain ⟨o1, h3, h4⟩ := (doesL_cons h).1 h1
            exact ⟨o1, h3, (ih.2 o1 o).2 ⟨o2, h4, h2⟩⟩
      refine ⟨h1, fun o0 o => ?_⟩
      cases o0 with
      | norm st => exact h1 none st o
      | goto g st => exact h1 (some g) st o
      | _ => simp [thenL]

/-- a label that is not there -/
theorem seek_miss {rt n} {g : Lab} {l : List CS} (h : ∀ c ∈ l, c.label ≠ some g) {st : St W} {o : CO W} :
    doesL W rt n l (some g) st o ↔ o = .goto g st := by
  induction l with
  | nil => simp [doesL]
  | cons c l ih =>
      rw [doesL_skip ⟨rfl, fun he => h c (List.mem_cons_self ..) he.symm⟩]
      exact ih fun x hx => h x (List.mem_cons_of_mem _ hx)

/-- one statement, and then the others -/
theorem runs_cons {rt n} {c : CS} {r : List CS} {st : St W} {Q Q' : CO W → Prop} (h : Runs (does W rt n c) st Q)
    (h' : ∀ o1, does W rt n c st o1 → Q o1 → Runs (fun _ => thenL rt n r o1) st Q') : Runs (doesL W rt n (c :: r) none) st Q' := by
  obtain ⟨⟨o1, h1⟩, hall⟩ := h
  constructor
  · obtain ⟨⟨o, ho⟩, _⟩ := h' o1 h1 (hall o1 h1)
    exact ⟨o, (doesL_cons (by simp)).2 ⟨o1, h1, ho⟩⟩
  · intro o ho
    obtain ⟨o1, h1, h2⟩ := (doesL_cons (by simp)).1 ho
    exact (h' o1 h1 (hall o1 h1)).2 o h2

/-- statements, and then the others -/
theorem runs_append {rt n} {l r : List CS} {st : St W} {Q Q' : CO W → Prop} (h : Runs (doesL W rt n l none) st Q)
    (h' : ∀ o1, doesL W rt n l none st o1 → Q o1 → Runs (fun _ => thenL rt n r o1) st Q') : Runs (doesL W rt n (l ++ r) none) st Q' := by
  obtain ⟨⟨o1, h1⟩, hall⟩ := h
  constructor
  · obtain ⟨⟨o, ho⟩, _⟩ := h' o1 h1 (hall o1 h1)
    exact ⟨o, ((thenL_append r l).1 none st o).2 ⟨o1, h1, ho⟩⟩
  · intro o ho
    obtain ⟨o1, h1, h2⟩ := ((thenL_append r l).1 none st o).1 ho
    exact (h' o1 h1 (hall o1 h1)).2 o h2

theorem doesL_skips {rt n} (d : Nat) (l : List CS) (st : St W) (o : CO W) :
    doesL W rt n (List.replicate d .skip ++ l) none st o ↔ doesL W rt n l none st o := by
  induction d with
  | zero => rfl
  | succ d ih =>
      rw [List.replicate_succ, List.cons_append, doesL_cons (by simp)]
      constructor
      · rintro ⟨o1, h1, h2⟩
        rw [does] at h1; cases h1
        exact ih.1 h2
      · intro h
        exact ⟨.norm st, by rw [does], ih.2 h⟩

/-! ## How the ends belong together -/

/-- An end of a statement of the language and an end of its text. -/
inductive Rel (env : Env) : Out W.σ → CO W → Prop where
  | norm {s τ} : Rel env (.norm s) (.norm (s, τ))
  | ret {v s τ} : Rel env (.leave env.ret v s) (.ret v (s, τ))
  | goto {h g v s τ} : h ≠ env.ret → find env.blocks h = some g → Rel env (.leave h v s) (.goto g (s, τ))
  | brk {h s τ} : h ≠ env.ret → env.brk = some h → Rel env (.leave h none s) (.brk (s, τ))
  | cont {h s τ} : h ≠ env.ret → env.cont = some h → Rel env (.leave h none s) (.cont (s, τ))
  | hang : Rel env .hang .hang
  | timeout : Rel env .timeout .timeout

/-- After the body of a loop: `continue` is the end of the body. -/
def LoopRel (env : Env) (out : Out W.σ) (o : CO W) : Prop :=
  Rel env out o ∨ ∃ s τ, out = .norm s ∧ o = .cont (s, τ)

/-- What is around fits. -/
structure EnvOK (env : Env) (hs : List Nat) (l : Nat) : Prop where
  lt : ∀ b ∈ env.blocks, b.1.num < l
  has : ∀ h ∈ hs, h ≠ env.ret → ∃ g, find env.blocks h = some g
  ret : env.ret ∈ hs
  brk : ∀ h, env.brk = some h → h ∈ hs
  cont : ∀ h, env.cont = some h → h ∈ hs

theorem find_mem {bs : List (Lab × Option Nat)} {h : Nat} {g : Lab} (hf : find bs h = some g) : ∃ b ∈ bs, b.1 = g := by
  induction bs with
  | nil => cases hf
  | cons b bs ih =>
      rw [find] at hf
      by_cases hb : b.2 = some h
      · rw [if_pos hb] at hf; cases hf; exact ⟨b, List.mem_cons_self .., rfl⟩
      · rw [if_neg hb] at hf
        obtain ⟨b', hm, he⟩ := ih hf
        exact ⟨b', List.mem_cons_of_mem _ hm, he⟩

theorem EnvOK.find_lt {env : Env} {hs : List Nat} {l : Nat} (h : EnvOK env hs l) {x : Nat} {g : Lab}
    (hf : find env.blocks x = some g) : g.num < l := by
  obtain ⟨b, hb, rfl⟩ := find_mem hf
  exact h.lt b hb

theorem EnvOK.mono {env : Env} {hs : List Nat} {l l' : Nat} (h : EnvOK env hs l) (hl : l ≤ l') : EnvOK env hs l' :=
  ⟨fun b hb => Nat.lt_of_lt_of_le (h.lt b hb) hl, h.has, h.ret, h.brk, h.cont⟩

theorem find_push {env : Env} {g : Lab} {h : Option Nat} {x : Nat} :
    find (env.push g h).blocks x = if h = some x then some g else find env.blocks x := rfl

/-- one more block around -/
theorem EnvOK.push {env : Env} {hs : List Nat} {l : Nat} (h : EnvOK env hs l) (g : Lab) (hg : g.num = l) (x : Option Nat) :
    EnvOK (env.push g x) (x.toList ++ hs) (l + 1) := by
  refine ⟨?_, ?_, List.mem_append.2 (Or.inr h.ret), fun y hy => List.mem_append.2 (Or.inr (h.brk y hy)),
    fun y hy => List.mem_append.2 (Or.inr (h.cont y hy))⟩
  · intro b hb
    rcases List.mem_cons.1 hb with rfl | hb
    · show g.num < _; omega
    · have := h.lt b hb; omega
  · intro y hy hne
    rw [find_push]
    by_cases hx : x = some y
    · exact ⟨g, by rw [if_pos hx]⟩
    · rw [if_neg hx]
      refine h.has y ?_ hne
      rcases List.mem_append.1 hy with hy | hy
      · cases x with
        | none => cases hy
        | some z => rw [Option.toList_some, List.mem_singleton] at hy; exact absurd (by rw [hy]) hx
      · exact hy

/-! ## No way out without a jump -/

theorem caught_leave {σ : Type} {h : Option Nat} {o : Out σ} {h' v s} (he : caught h o = .leave h' v s) : o = .leave h' v s := by
  cases o with
  | leave h1 v1 s1 =>
      simp only [caught] at he
      by_cases hx : h = some h1
      · rw [if_pos hx] at he; cases he
      · rw [if_neg hx] at he; exact he
  | _ => cases he

theorem steps_leave {l : List N} {k : W.σ → Out W.σ} {s h v s'} (he : steps W l k s = .leave h v s') :
    ∃ s1, k s1 = .leave h v s' := by
  rw [steps_run] at he
  cases hr : runAll W l s with
  | none => rw [hr] at he; cases he
  | some x => rw [hr] at he; exact ⟨_, he⟩

theorem guard_leave {c : Option N} {k : W.σ → Out W.σ} {s h v s'} (he : guard W c k s = .leave h v s') :
    ∃ s1, k s1 = .leave h v s' := by
  cases c with
  | none => exact ⟨s, he⟩
  | some c =>
      rw [StmtRun.guard] at he
      cases hr : CgMean.run W c s with
      | none => rw [hr] at he; cases he
      | some x =>
          rw [hr] at he
          simp only [andThen] at he
          by_cases hx : truth W x.1 = true
          · rw [if_pos hx] at he; exact ⟨_, he⟩
          · rw [if_neg hx] at he; cases he

theorem after_leave {σ : Type} {o : Out σ} {k : σ → Out σ} {h v s'} (he : o.after k = .leave h v s') :
    o = .leave h v s' ∨ ∃ s1, k s1 = .leave h v s' := by
  cases o with
  | norm s => exact Or.inr ⟨s, he⟩
  | _ => exact Or.inl he

theorem turns_leave {body : W.σ → Out W.σ} {post : List N} {pcond cond : Option N} : ∀ {n s h v s'},
    turns W body post pcond cond n s = .leave h v s' → ∃ s1, body s1 = .leave h v s'
  | 0, s, h, v, s', he => by cases he
  | n + 1, s, h, v, s', he => by
      rw [turns] at he
      rcases after_leave he with h1 | ⟨s1, h1⟩
      · exact ⟨_, h1⟩
      · obtain ⟨s2, h2⟩ := steps_leave h1
        obtain ⟨s3, h3⟩ := guard_leave h2
        obtain ⟨s4, h4⟩ := guard_leave h3
        exact turns_leave h4

mutual
theorem leave_jumps (W : World) (n : Nat) : (s : S) → ∀ st h v st', exec W n s st = .leave h v st' → jumps h s = true
  | .expr e, st, h, v, st', he => by
      rw [exec] at he
      cases hr : CgMean.run W e st <;> rw [hr] at he <;> cases he
  | .empty, st, h, v, st', he => by rw [exec] at he; cases he
  | .ite c a b, st, h, v, st', he => by
      rw [exec] at he
      rw [jumps, Bool.or_eq_true]
      cases hr : CgMean.run W c st with
      | none => rw [hr] at he; cases he
      | some x =>
          rw [hr] at he
          simp only [andThen] at he
          by_cases hx : truth W x.1 = true
          · rw [if_pos hx] at he; exact Or.inl (leave_jumps W n a _ _ _ _ he)
          · rw [if_neg hx] at he; exact Or.inr (leave_jumps W n b _ _ _ _ he)
  | .and cs b, st, h, v, st', he => by
      rw [exec] at he
      rw [jumps]
      cases hr : allTrue W cs st with
      | none => rw [hr] at he; cases he
      | some x =>
          rw [hr] at he
          simp only [andThen] at he
          by_cases hx : x.1 = true
          · rw [if_pos hx] at he; exact leave_jumps W n b _ _ _ _ he
          · rw [if_neg hx] at he; cases he
  | .or cs b, st, h, v, st', he => by
      rw [exec] at he
      rw [jumps]
      cases hr : anyTrue W cs st with
      | none => rw [hr] at he; cases he
      | some x =>
          rw [hr] at he
          simp only [andThen] at he
          by_cases hx : x.1 = true
          · rw [if_pos hx] at he; cases he
          · rw [if_neg hx] at he; exact leave_jumps W n b _ _ _ _ he
  | .block h0 items, st, h, v, st', he => by
      rw [exec] at he
      rw [jumps]
      cases ho : execL W n items st with
      | leave h1 v1 s1 =>
          rw [ho] at he
          simp only [caught] at he
          by_cases hx : h0 = some h1
          · rw [if_pos hx] at he; cases he
          · rw [if_neg hx] at he; cases he
            exact leave_jumpsL W n items _ _ _ _ ho
      | _ => rw [ho] at he; cases he
  | .loop h0 init cond body post pcond, st, h, v, st', he => by
      rw [exec] at he
      rw [jumps]
      have he' := caught_leave he
      obtain ⟨s1, he1⟩ := steps_leave he'
      obtain ⟨s2, he2⟩ := guard_leave he1
      obtain ⟨s3, he3⟩ := turns_leave he2
      exact leave_jumps W n body _ _ _ _ he3
  | .enter h0 init cond hp pre body post pcond, st, h, v, st', he => by
      rw [exec] at he
      rw [jumps, Bool.or_eq_true]
      have he' := caught_leave he
      obtain ⟨s1, he1⟩ := steps_leave he'
      obtain ⟨s2, he2⟩ := guard_leave he1
      rcases after_leave he2 with h1 | ⟨s3, h1⟩
      · exact Or.inl (leave_jumpsL W n pre _ _ _ _ (caught_leave h1))
      · obtain ⟨s4, h2⟩ := turns_leave h1
        exact Or.inr (leave_jumps W n body _ _ _ _ h2)
  | .jump h0 none, st, h, v, st', he => by rw [exec] at he; cases he; simp [jumps]
  | .jump h0 (some e), st, h, v, st', he => by
      rw [exec] at he
      cases hr : CgMean.run W e st with
      | none => rw [hr] at he; cases he
      | some x => rw [hr] at he; cases he; simp [jumps]
theorem leave_jumpsL (W : World) (n : Nat) : (l : List S) → ∀ st h v st', execL W n l st = .leave h v st' → jumpsL h l = true
  | [], st, h, v, st', he => by rw [execL] at he; cases he
  | s :: r, st, h, v, st', he => by
      rw [execL] at he
      rw [jumpsL, Bool.or_eq_true]
      rcases after_leave he with h1 | ⟨s1, h1⟩
      · exact Or.inl (leave_jumps W n s _ _ _ _ h1)
      · exact Or.inr (leave_jumpsL W n r _ _ _ _ h1)
end

end Verif.StmtRel
