/-!
# Loops of the modelled code

`for (mut i = lo; i < hi; i++) body` as a total function, with a Hoare-style rule for each form.
`none` is a run-time fault (an out-of-bounds access: `fu` aborts or the behaviour is undefined).
-/
namespace Verif

/-- `for (i = lo; i < hi; i++) s = body(i, s)`. -/
def forUp {σ : Type _} (lo hi : Nat) (s : σ) (body : Nat → σ → Option σ) : Option σ :=
  if lo < hi then
    match body lo s with
    | none => none
    | some s' => forUp (lo + 1) hi s' body
  else some s
termination_by hi - lo

/-- `for (i = lo; i < hi; i++) …` whose body may leave the loop (`break` / `return`) with a value: `.inr`.  `.inl` is
the state when the loop runs to its end. -/
def forBrk {σ ρ : Type _} (lo hi : Nat) (s : σ) (body : Nat → σ → Option (σ ⊕ ρ)) : Option (σ ⊕ ρ) :=
  if lo < hi then
    match body lo s with
    | none => none
    | some (.inr r) => some (.inr r)
    | some (.inl s') => forBrk (lo + 1) hi s' body
  else some (.inl s)
termination_by hi - lo

theorem forUp_inv {σ : Type _} {lo hi : Nat} {s : σ} {body : Nat → σ → Option σ} (P : Nat → σ → Prop)
    (hle : lo ≤ hi) (h0 : P lo s)
    (hstep : ∀ k s, lo ≤ k → k < hi → P k s → ∃ s', body k s = some s' ∧ P (k + 1) s') :
    ∃ s', forUp lo hi s body = some s' ∧ P hi s' := by
  induction hn : hi - lo generalizing lo s with
  | zero =>
    have : lo = hi := by omega
    subst this
    refine ⟨s, ?_, h0⟩
    unfold forUp; simp
  | succ n ih =>
    have hlt : lo < hi := by omega
    obtain ⟨s', e, p⟩ := hstep lo s (Nat.le_refl _) hlt h0
    obtain ⟨s'', e', p'⟩ := ih (lo := lo + 1) (s := s') (by omega) p
      (fun k s hk hk' hp => hstep k s (by omega) hk' hp) (by omega)
    refine ⟨s'', ?_, p'⟩
    unfold forUp; simp [hlt, e, e']

theorem forBrk_inv {σ ρ : Type _} {lo hi : Nat} {s : σ} {body : Nat → σ → Option (σ ⊕ ρ)}
    (P : Nat → σ → Prop) (Q : ρ → Prop)
    (hle : lo ≤ hi) (h0 : P lo s)
    (hstep : ∀ k s, lo ≤ k → k < hi → P k s →
      (∃ s', body k s = some (.inl s') ∧ P (k + 1) s') ∨ (∃ r, body k s = some (.inr r) ∧ Q r)) :
    (∃ s', forBrk lo hi s body = some (.inl s') ∧ P hi s') ∨ (∃ r, forBrk lo hi s body = some (.inr r) ∧ Q r) := by
  induction hn : hi - lo generalizing lo s with
  | zero =>
    have : lo = hi := by omega
    subst this
    left
    refine ⟨s, ?_, h0⟩
    unfold forBrk; simp
  | succ n ih =>
    have hlt : lo < hi := by omega
    rcases hstep lo s (Nat.le_refl _) hlt h0 with ⟨s', e, p⟩ | ⟨r, e, q⟩
    · rcases ih (lo := lo + 1) (s := s') (by omega) p
        (fun k s hk hk' hp => hstep k s (by omega) hk' hp) (by omega) with ⟨s'', e', p'⟩ | ⟨r, e', q⟩
      · left; refine ⟨s'', ?_, p'⟩; unfold forBrk; simp [hlt, e, e']
      · right; refine ⟨r, ?_, q⟩; unfold forBrk; simp [hlt, e, e']
    · right; refine ⟨r, ?_, q⟩; unfold forBrk; simp [hlt, e]

end Verif
