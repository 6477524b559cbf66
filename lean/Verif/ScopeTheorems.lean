import Verif.ScopeRun
/-! # C63: what a name refers to -/
namespace Verif.Scope
open Verif

/-- the scopes that histories without autocalls lead to -/
def Reachable (s : State) : Prop := ∃ ops : List Op, (∀ op ∈ ops, op.plain = true) ∧ run init ops = some s

theorem Reachable.inv {s : State} (h : Reachable s) : Inv s := by
  obtain ⟨ops, hp, e⟩ := h
  exact run_ok ops init s init_ok hp e

/-- **C63**, in part: whatever was declared, entered, left and looked up before, a finished lookup has found exactly the
items of that name visible when it started - the last declared first - then the fields, then the extra items; and one that
is under way has found a beginning of that list.  Missing: histories with autocalls, of which it is false
(`autocall_misses`). -/
theorem lookups_complete_partial (s : State) (h : Reachable s) (i : Iter) (hi : i ∈ s.top.iters) :
    (i.finished = true → i.results = i.expected) ∧ i.results <+: i.expected := by
  obtain ⟨views, _, _, hc⟩ := h.inv
  obtain ⟨_, _, h3⟩ := hc.top.iters i hi
  cases e : i.finished with
  | true =>
    rw [e] at h3
    simp only [if_true] at h3
    exact ⟨fun _ => h3, h3 ▸ List.prefix_refl _⟩
  | false =>
    rw [e] at h3
    obtain ⟨_, r, hr, _⟩ := h3
    exact ⟨(fun h => by cases h), r, hr.symm⟩

/-- **C63** No request that makes sense fails: no lookup loops for ever, throws or reads out of bounds. -/
theorem never_fails (s : State) (h : Reachable s) (op : Op) (hp : Possible s op) : ∃ s', step s op = some s' := by
  obtain ⟨s', e, _⟩ := step_ok h.inv op hp
  exact ⟨s', e⟩

theorem next_run (s : State) (h : Inv s) (k : Nat) (i : Iter) (hi : s.top.iters[k]? = some i) (hf : i.finished = false) :
    ∃ (n : Nat) (s' : State) (i' : Iter), run s (List.replicate n (.next k)) = some s' ∧ s'.top.iters[k]? = some i' ∧ i'.finished = true ∧
      i'.results = i.expected := by
  have main : ∀ (m : Nat) (s : State) (i : Iter), Inv s → s.top.iters[k]? = some i → i.finished = false →
      i.expected.length - i.results.length = m → ∃ (n : Nat) (s' : State) (i' : Iter), run s (List.replicate n (.next k)) = some s' ∧
        s'.top.iters[k]? = some i' ∧ i'.finished = true ∧ i'.results = i.expected := by
    intro m
    induction m with
    | zero =>
      intro s i ⟨views, hm, hs, hc⟩ hi hf hlen
      obtain ⟨h1, h2, h3⟩ := hc.top.iters i (List.mem_of_getElem? hi)
      rw [hf] at h3
      obtain ⟨h0, r, he, hr⟩ := h3
      obtain ⟨items', i', e, hsk, hsd, hok, hexp, hfin, hres⟩ := advance_ok hm hs hc.top i h1 h2 r he hr
      have hr0 : r = [] := by
        rw [he, List.length_append] at hlen
        exact List.length_eq_zero_iff.1 (by omega)
      refine ⟨1, { s with items := items', top := { s.top with iters := s.top.iters.set k i' } }, i', ?_, ?_, ?_, ?_⟩
      · show (step s (.next k)).bind _ = _
        have : step s (.next k) = some { s with items := items', top := { s.top with iters := s.top.iters.set k i' } } := by
          unfold step
          simp only [hi, hf, Bool.false_eq_true, if_false, e]
          rfl
        rw [this]; rfl
      · show (s.top.iters.set k i')[k]? = some i'
        rw [List.getElem?_set_self (by
          rcases Nat.lt_or_ge k s.top.iters.length with h | h
          · exact h
          · rw [List.getElem?_eq_none h] at hi; cases hi)]
      · rw [hfin, hr0]; rfl
      · rw [hres, hr0, he, hr0]; simp
    | succ m ih =>
      intro s i hinv hi hf hlen
      have hinv' := hinv
      obtain ⟨views, hm, hs, hc⟩ := hinv'
      obtain ⟨h1, h2, h3⟩ := hc.top.iters i (List.mem_of_getElem? hi)
      rw [hf] at h3
      obtain ⟨h0, r, he, hr⟩ := h3
      obtain ⟨items', i', e, hsk, hsd, hok, hexp, hfin, hres⟩ := advance_ok hm hs hc.top i h1 h2 r he hr
      have hst : step s (.next k) = some { s with items := items', top := { s.top with iters := s.top.iters.set k i' } } := by
        unfold step
        simp only [hi, hf, Bool.false_eq_true, if_false, e]
        rfl
      have hrl : r.length = m + 1 := by
        rw [he, List.length_append] at hlen; omega
      obtain ⟨s1, e1, hI⟩ := step_ok hinv (.next k) ⟨i, hi, hf⟩
      rw [hst] at e1
      cases e1
      have hk' : (s.top.iters.set k i')[k]? = some i' := by
        rw [List.getElem?_set_self (by
          rcases Nat.lt_or_ge k s.top.iters.length with h | h
          · exact h
          · rw [List.getElem?_eq_none h] at hi; cases hi)]
      obtain ⟨n, s', i'', e2, h4, h5, h6⟩ := ih _ i' hI hk' (by rw [hfin]; cases r with
        | nil => simp at hrl
        | cons _ _ => rfl) (by
          rw [hexp, he, hres, List.length_append, List.length_append, List.length_take]; omega)
      refine ⟨n + 1, s', i'', ?_, h4, h5, by rw [h6, hexp]⟩
      show (step s (.next k)).bind _ = _
      rw [hst]
      exact e2
  exact main _ s i h hi hf rfl

/-- **C63**, in part: in any scope reached without autocalls, looking a name up until nothing more is found takes finitely
many calls and gives exactly the answers of the specification. -/
theorem lookup_all_partial (s : State) (h : Reachable s) (id : Str) (field : List Item) (extra : List (BitVec 64))
    (hf : field.length ≤ maxItems) (he : extra.length ≤ maxItems) :
    ∃ (n : Nat) (s' : State) (i : Iter), run s (.look id field extra :: List.replicate n (.next s.top.iters.length)) = some s' ∧
      s'.top.iters[s.top.iters.length]? = some i ∧ i.finished = true ∧ i.results = answers s.items s.top.skips id field extra := by
  have hinv := h.inv
  obtain ⟨views, hm, hs, hc⟩ := h.inv
  obtain ⟨items', i', e, hsk, hsd, hok, hexp, hfin, hres⟩ := advance_ok hm hs hc.top
    ⟨id, field, extra, 0, [], false, answers s.items s.top.skips id field extra⟩ hf he _ rfl
    (Or.inl ⟨rfl, answers_eq _ _ _ _ _⟩)
  have hst : step s (.look id field extra) = some { s with items := items', top := { s.top with iters := s.top.iters ++ [i'] } } := by
    unfold step
    simp only
    rw [if_pos ⟨hf, he⟩, e]
    rfl
  obtain ⟨s1, e1, hI⟩ := step_ok hinv (.look id field extra) ⟨hf, he⟩
  rw [hst] at e1
  cases e1
  have hk : (s.top.iters ++ [i'])[s.top.iters.length]? = some i' := by simp
  cases hfin' : i'.finished with
  | true =>
    refine ⟨0, { s with items := items', top := { s.top with iters := s.top.iters ++ [i'] } }, i', ?_, hk, hfin', ?_⟩
    · show (step s (.look id field extra)).bind _ = _
      rw [hst]; rfl
    · have := hok.2.2
      rw [hfin'] at this
      simp only [if_true] at this
      rw [this, hexp]
  | false =>
    obtain ⟨n, s', i'', e2, h4, h5, h6⟩ := next_run _ hI s.top.iters.length i' hk hfin'
    refine ⟨n, s', i'', ?_, h4, h5, by rw [h6, hexp]⟩
    show (step s (.look id field extra)).bind _ = _
    rw [hst]
    exact e2

/-- reading off how a history ends -/
theorem of_summary {ops : List Op} {f : Bool} {e r : List (BitVec 64 × Bool)}
    (h : (run init ops).map (fun s => s.top.iters.map fun i => (i.finished, i.expected, i.results)) = some [(f, e, r)]) :
    ∃ s i, run init ops = some s ∧ s.top.iters = [i] ∧ i.finished = f ∧ i.expected = e ∧ i.results = r := by
  cases hr : run init ops with
  | none => rw [hr] at h; cases h
  | some s =>
    rw [hr] at h
    simp only [Option.map_some, Option.some.injEq] at h
    match hi : s.top.iters, h with
    | [i], h =>
      simp only [List.map_cons, List.map_nil, List.cons.injEq, Prod.mk.injEq, and_true] at h
      exact ⟨s, i, rfl, hi, h.1, h.2.1, h.2.2⟩

/-- **C63 is false** of histories with autocalls: a lookup made earlier hides an overload from a later one.  Function 1 sees
nothing of `f` but its own; asking for `f` there marks that one as the only one; then the union of its scope with that
of function 2, which sees another `f`, is searched, and that other `f` is missed. -/
theorem autocall_misses :
    ∃ (ops : List Op) (s : State) (i : Iter), run init ops = some s ∧ s.top.iters = [i] ∧ i.finished = true ∧
      i.expected = [(2#64, false), (1#64, false)] ∧ i.results = [(2#64, false)] :=
  ⟨[.declare, .enter 0, .declare, .push (str "f") 1#64 false, .declare, .enter 1, .push (str "f") 2#64 false,
    .look (str "f") [] [], .next 0, .autocall 2, .look (str "f") [] [], .next 0], of_summary (by decide +kernel)⟩

/-- An empty skip - which `ScopeSkip_push` never makes - would send the lookup into an endless loop. -/
theorem empty_skip_diverges (fuel : Nat) :
    search fuel [mkItem (str "a") 1#64 false, mkItem (str "a") 2#64 false] (str "b") 0 [⟨1, 1⟩] [] [] = none := by
  have loop : ∀ n, scan [mkItem (str "a") 1#64 false, mkItem (str "a") 2#64 false] (str "b") [⟨1, 1⟩] n 1 0 = .fault := by
    intro n
    induction n with
    | zero => rfl
    | succ n ih =>
      unfold scan
      have h : nextSkip [⟨1, 1⟩] (1 - 1) 0 = (0, 0) := by decide
      rw [if_pos (by decide), if_pos (by decide), h, if_neg (by decide)]
      exact ih
  unfold search searchFrom
  rw [if_pos (by decide), if_pos (by decide)]
  have e : (0x10000000 + (([mkItem (str "a") 1#64 false, mkItem (str "a") 2#64 false].length : Nat) : Int)) - 0x10000000 = 2 := by decide
  rw [e]
  unfold searchItems
  have h : nextSkip [⟨1, 1⟩].reverse (2 - 1) (-1) = (1, 0) := by decide
  rw [h]
  dsimp only
  rw [if_neg (by decide)]
  cases fuel with
  | zero => rfl
  | succ n =>
    have : scan [mkItem (str "a") 1#64 false, mkItem (str "a") 2#64 false] (str "b") [⟨1, 1⟩].reverse (n + 1) (1 + 1) 0 = .fault := by
      unfold scan
      rw [if_pos (by decide), if_neg (by decide)]
      have : get [mkItem (str "a") 1#64 false, mkItem (str "a") 2#64 false] (1 + 1 - 1) = some (mkItem (str "a") 2#64 false) := by decide +kernel
      rw [this]
      dsimp only
      rw [if_neg (by decide)]
      exact loop n
    rw [this]

/-! non-vacuity: a nested function, entered from its parent after more was declared, does not see what came later -/

example : ∃ s i, run init [.declare, .push (str "f") 1#64 false, .enter 0, .push (str "f") 2#64 true, .declare, .push (str "f") 3#64 false, .enter 1,
    .look (str "f") [] [9#64], .next 0, .next 0, .next 0] = some s ∧ s.top.iters = [i] ∧ i.finished = true ∧
    i.expected = [(2#64, true), (1#64, false), (9#64, false)] ∧ i.results = [(2#64, true), (1#64, false), (9#64, false)] :=
  of_summary (by decide +kernel)

end Verif.Scope
