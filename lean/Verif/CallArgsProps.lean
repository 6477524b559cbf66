import Verif.CallArgsCount
/-!
# C84: how a call binds its arguments
-/
namespace Verif.CallArgs
open Spec

/-- C84: an accepted call gives every parameter what the specification says. -/
theorem call_binds_as_specified {t : Types} {s : Sig} {args : List Arg} {numUsings : Nat} {out : List Slot}
    (wf : WellFormed s) (wa : WellFormedArgs args) (hb : Builds s args)
    (h : call t s args numUsings = .ok out) : out = slots s args := (call_binds wf wa hb h).1

theorem out_given {s : Sig} {args : List Arg} {i j : Nat} (h : (slots s args)[i]? = some (.given j)) :
    expect (visible s) args (shortBy s args) i = some j := by
  rw [slots_get] at h
  rcases hp : s.params[i]? with _ | p
  · rw [hp] at h; cases h
  · rw [hp, Option.map_some] at h
    have h := Option.some.inj h
    rcases he : expect (visible s) args (shortBy s args) i with _ | k
    · rw [he] at h
      simp only [slotOf] at h
      split at h
      · cases h
      · split at h <;> cases h
    · rw [he] at h; cases h; rfl

theorem given_out {s : Sig} {args : List Arg} {i j : Nat}
    (h : expect (visible s) args (shortBy s args) i = some j) : (slots s args)[i]? = some (.given j) := by
  rw [slots_get]
  have hi : i < (visible s).length := by
    rcases Nat.lt_or_ge i (visible s).length with c | c
    · exact c
    · rw [expect_past _ _ _ c] at h; cases h
  have hi' := Nat.lt_of_lt_of_le hi (visible_le s)
  rw [List.getElem?_eq_getElem hi', h]; rfl

theorem visible_get {s : Sig} (wf : WellFormed s) {i : Nat} {p : Param} (hp : s.params[i]? = some p)
    (hinj : p.inj = false) : (visible s)[i]? = some p := by
  obtain ⟨injected, e, hi⟩ := wf.injLast
  rcases Nat.lt_or_ge i (visible s).length with c | c
  · rw [e, List.getElem?_append_left c] at hp; exact hp
  · rw [e, List.getElem?_append_right c] at hp
    have := (hi p (List.mem_of_getElem? hp)).2
    rw [hinj] at this; cases this

theorem visible_params {s : Sig} (wf : WellFormed s) {i : Nat} {p : Param} (hp : (visible s)[i]? = some p) :
    s.params[i]? = some p := by
  obtain ⟨injected, e, hi⟩ := wf.injLast
  rw [e, List.getElem?_append_left (List.getElem?_eq_some_iff.1 hp).1]; exact hp

/-- C84: an argument named after a parameter goes to that parameter (the first one, when the name is repeated). -/
theorem named_argument_goes_to_its_parameter {t : Types} {s : Sig} {args : List Arg} {numUsings : Nat}
    {out : List Slot} (wf : WellFormed s) (wa : WellFormedArgs args) (hb : Builds s args)
    (h : call t s args numUsings = .ok out) {i j : Nat} {p : Param} {a : Arg} (hp : s.params[i]? = some p)
    (hinj : p.inj = false) (ha : args[j]? = some a) (hn : a.name = p.name)
    (hfirst : ∀ k b, k < j → args[k]? = some b → b.name ≠ p.name) : out[i]? = some (.given j) := by
  rw [(call_binds wf wa hb h).1]
  apply given_out
  apply expect_named (visible_get wf hp hinj)
  unfold named
  rw [List.findIdx?_eq_some_iff_getElem]
  obtain ⟨hj, hja⟩ := List.getElem?_eq_some_iff.1 ha
  refine ⟨hj, by rw [hja]; simp [hn], ?_⟩
  intro k hk
  simpa using hfirst k _ hk (List.getElem?_eq_getElem (by omega))

/-- C84: a parameter that is given a named argument has that name. -/
theorem named_argument_only_to_its_parameter {t : Types} {s : Sig} {args : List Arg} {numUsings : Nat}
    {out : List Slot} (wf : WellFormed s) (wa : WellFormedArgs args) (hb : Builds s args)
    (h : call t s args numUsings = .ok out) {i j : Nat} {a : Arg} (ho : out[i]? = some (.given j))
    (ha : args[j]? = some a) (hn : a.name ≠ "") :
    ∃ p, s.params[i]? = some p ∧ p.inj = false ∧ p.name = a.name := by
  rw [(call_binds wf wa hb h).1] at ho
  have he := out_given ho
  unfold expect at he
  rcases hp : (visible s)[i]? with _ | p
  · rw [hp] at he; cases he
  · rw [hp] at he
    simp only at he
    have hv := (List.mem_filter.1 (List.mem_of_getElem? hp)).2
    refine ⟨p, visible_params wf hp, by simpa using hv, ?_⟩
    rcases hnm : named args p.name with _ | k
    · rw [hnm] at he
      simp only at he
      split at he
      · cases he
      · obtain ⟨b, hb1, hb2⟩ := positional_mem.1 (List.mem_of_getElem? he)
        rw [ha] at hb1; cases hb1
        exact absurd hb2 hn
    · rw [hnm] at he
      cases he
      obtain ⟨b, hb1, hb2⟩ := named_some hnm
      rw [ha] at hb1; cases hb1
      exact hb2.symm

/-- C84: positional arguments keep their order. -/
theorem positional_arguments_keep_order {t : Types} {s : Sig} {args : List Arg} {numUsings : Nat}
    {out : List Slot} (wf : WellFormed s) (wa : WellFormedArgs args) (hb : Builds s args)
    (h : call t s args numUsings = .ok out) {i k j l : Nat} {a b : Arg} (hi : out[i]? = some (.given j))
    (hk : out[k]? = some (.given l)) (ha : args[j]? = some a) (hbl : args[l]? = some b) (ha0 : a.name = "")
    (hb0 : b.name = "") (hik : i < k) : j < l := by
  rw [(call_binds wf wa hb h).1] at hi hk
  have hi := out_given hi
  have hk := out_given hk
  unfold expect at hi hk
  rcases hp : (visible s)[i]? with _ | p
  · rw [hp] at hi; cases hi
  rcases hq : (visible s)[k]? with _ | q
  · rw [hq] at hk; cases hk
  rw [hp] at hi
  rw [hq] at hk
  simp only at hi hk
  rcases hnp : named args p.name with _ | x
  · rcases hnq : named args q.name with _ | y
    · rw [hnp] at hi
      rw [hnq] at hk
      simp only at hi hk
      split at hi
      · cases hi
      · split at hk
        · cases hk
        · rename_i h1 h2
          have hlt := rank_lt (visible s) args hp (by simp [free, hnp]) hik
          have hs : (positional args).Pairwise (· < ·) := (List.pairwise_lt_range).filter _
          obtain ⟨hi1, hi2⟩ := List.getElem?_eq_some_iff.1 hi
          obtain ⟨hk1, hk2⟩ := List.getElem?_eq_some_iff.1 hk
          rw [← hi2, ← hk2]
          exact List.pairwise_iff_getElem.1 hs _ _ hi1 hk1 (by omega)
    · rw [hnq] at hk
      cases hk
      obtain ⟨c, hc1, hc2⟩ := named_some hnq
      rw [hbl] at hc1; cases hc1
      exact absurd (hc2.symm.trans hb0) (wf.named q (List.mem_of_getElem? hq))
  · rw [hnp] at hi
    cases hi
    obtain ⟨c, hc1, hc2⟩ := named_some hnp
    rw [ha] at hc1; cases hc1
    exact absurd (hc2.symm.trans ha0) (wf.named p (List.mem_of_getElem? hp))

/-- C84: no argument goes to two parameters. -/
theorem no_argument_twice {t : Types} {s : Sig} {args : List Arg} {numUsings : Nat} {out : List Slot}
    (wf : WellFormed s) (wa : WellFormedArgs args) (hb : Builds s args)
    (h : call t s args numUsings = .ok out) {i k j : Nat} (hi : out[i]? = some (.given j))
    (hk : out[k]? = some (.given j)) : i = k := by
  rw [(call_binds wf wa hb h).1] at hi hk
  exact expect_inj wf.named (wf.distinct.sublist ((List.filter_sublist).map _)) (out_given hi) (out_given hk)

/-- C84: a required parameter gets an argument, or a `using` in scope supplies it. -/
theorem required_parameter_supplied {t : Types} {s : Sig} {args : List Arg} {numUsings : Nat} {out : List Slot}
    (wf : WellFormed s) (wa : WellFormedArgs args) (hb : Builds s args)
    (h : call t s args numUsings = .ok out) {i : Nat} {p : Param} (hp : s.params[i]? = some p)
    (hr : Required p = true) :
    (∃ j, j < args.length ∧ out[i]? = some (.given j)) ∨ (out[i]? = some .using_ ∧ t.supplies i = true) := by
  obtain ⟨ho, ht⟩ := call_binds wf wa hb h
  rcases he : expect (visible s) args (shortBy s args) i with _ | j
  · right
    unfold Required at hr
    simp only [Bool.and_eq_true, Bool.not_eq_true'] at hr
    constructor
    · rw [ho, slots_get, hp, Option.map_some, he]
      simp [slotOf, hr.1, hr.2]
    · obtain ⟨u, hu⟩ := ht i p hp
      rw [he] at hu
      simp only [matchRes, hr.1, hr.2] at hu
      rcases hs : t.supplies i
      · simp [hs] at hu
      · rfl
  · exact .inl ⟨j, expect_lt he, by rw [ho]; exact given_out he⟩

/-- C84: an argument only goes where its type fits, and a parameter declared `name!` only takes a named argument. -/
theorem accepted_arguments_fit {t : Types} {s : Sig} {args : List Arg} {numUsings : Nat} {out : List Slot}
    (wf : WellFormed s) (wa : WellFormedArgs args) (hb : Builds s args)
    (h : call t s args numUsings = .ok out) {i j : Nat} {p : Param} {a : Arg} (hp : s.params[i]? = some p)
    (ho : out[i]? = some (.given j)) (ha : args[j]? = some a) :
    t.fits i j = true ∧ (p.must = true → a.name ≠ "") := by
  obtain ⟨ho', ht⟩ := call_binds wf wa hb h
  rw [ho'] at ho
  obtain ⟨u, hu⟩ := ht i p hp
  rw [out_given ho] at hu
  simp only [matchRes, ha] at hu
  split at hu
  · cases hu
  · rename_i hm
    split at hu
    · rename_i hf
      refine ⟨hf, ?_⟩
      intro hmust h0
      exact hm (by simp [hmust, h0])
    · cases hu

/-- Every argument of an accepted call is bound, unless it is optional or the call has more arguments than the callee
has parameters. -/
theorem bound_or_optional {s : Sig} {args : List Arg} {r : Reorder} (wf : WellFormed s) (wa : WellFormedArgs args)
    (h : reorderByArgIDs (args.map (·.name)) (collectOptional args) s.params (shortBy s args) = .ok r)
    (hroom : args.length ≤ (visible s).length) {j : Nat} (hj : j < args.length) :
    (∃ i, expect (visible s) args (shortBy s args) i = some j) ∨ j ∈ collectOptional args := by
  have hd : ((visible s).map (·.name)).Nodup := wf.distinct.sublist ((List.filter_sublist).map _)
  obtain ⟨-, hc, -⟩ := reorder_ok h
  rcases named_claimed wf.named hd wa hc hj with c | c | c
  · obtain ⟨p, hpV, hn⟩ := claims_mem.1 c
    obtain ⟨i, hi⟩ := List.mem_iff_getElem?.1 hpV
    exact .inl ⟨i, expect_named hi hn⟩
  · have hle := claims_positional_le (args := args) wf.named hd
    have hmin := wf.min_le
    obtain ⟨i, -, hi⟩ := positional_bound (V := visible s) (nu := shortBy s args) (by unfold shortBy; omega) c
    exact .inl ⟨i, hi⟩
  · exact .inr c

/-- C84: no argument is lost: when the callee has at least as many parameters as the call has arguments, every
argument is bound, or it is an optional argument `name?:` for which there is no parameter or an earlier argument. -/
theorem no_argument_lost {t : Types} {s : Sig} {args : List Arg} {numUsings : Nat} {out : List Slot}
    (wf : WellFormed s) (wa : WellFormedArgs args) (hb : Builds s args)
    (h : call t s args numUsings = .ok out) (hroom : args.length ≤ (visible s).length) {j : Nat} {a : Arg}
    (ha : args[j]? = some a) :
    (∃ i : Nat, out[i]? = some (.given j)) ∨
    (a.opt = true ∧ ∀ p ∈ visible s, p.name = a.name → ∃ k b, k < j ∧ args[k]? = some b ∧ b.name = a.name) := by
  have hj := (List.getElem?_eq_some_iff.1 ha).1
  have ho := (call_binds wf wa hb h).1
  have hm : ∃ m, matchCall t s args numUsings = .ok m := by
    unfold call at h
    rcases hm : matchCall t s args numUsings with m | _ | _
    · exact ⟨m, rfl⟩
    · rw [hm] at h; cases h
    · rw [hm] at h; cases h
  obtain ⟨m, hm⟩ := hm
  obtain ⟨h1, h2, h3⟩ := matchCall_cases (t := t) (numUsings := numUsings) hb (by rw [hm]; simp)
  have hd : ((visible s).map (·.name)).Nodup := wf.distinct.sublist ((List.filter_sublist).map _)
  have hmin := wf.min_le
  have hle := claims_positional_le (args := args) wf.named hd
  rcases h3 with ⟨hn, e⟩ | ⟨hn, ⟨r, hr, e⟩ | ⟨hr, e⟩⟩
  · have hnn := noNames hn
    have hp : j ∈ positional args := positional_mem.2 ⟨a, ha, hnn a (List.mem_of_getElem? ha)⟩
    obtain ⟨i, -, hi⟩ := positional_bound (V := visible s) (nu := shortBy s args) (by unfold shortBy; omega) hp
    exact .inl ⟨i, by rw [ho]; exact given_out hi⟩
  · rcases bound_or_optional wf wa hr hroom hj with ⟨i, hi⟩ | c
    · exact .inl ⟨i, by rw [ho]; exact given_out hi⟩
    · by_cases hcl : j ∈ claims (visible s) args
      · obtain ⟨p, hpV, hnm⟩ := claims_mem.1 hcl
        obtain ⟨i, hi⟩ := List.mem_iff_getElem?.1 hpV
        exact .inl ⟨i, by rw [ho]; exact given_out (expect_named hi hnm)⟩
      · right
        obtain ⟨b, hb1, hb2⟩ := collectOptional_mem.1 c
        rw [ha] at hb1; cases hb1
        refine ⟨hb2, ?_⟩
        intro p hpV hpn
        rcases hnm : named args p.name with _ | k
        · exact absurd hpn.symm (named_none hnm a (List.mem_of_getElem? ha))
        · obtain ⟨b, hb1, hb2⟩ := named_some hnm
          have hk : k ≠ j := fun e => hcl (claims_mem.2 ⟨p, hpV, e ▸ hnm⟩)
          refine ⟨k, b, ?_, hb1, hb2.trans hpn⟩
          unfold named at hnm
          rw [List.findIdx?_eq_some_iff_getElem] at hnm
          obtain ⟨hk1, hk2, hk3⟩ := hnm
          rcases Nat.lt_or_ge k j with c | c
          · exact c
          · exfalso
            have hja : args[j] = a := (List.getElem?_eq_some_iff.1 ha).2
            have := hk3 j (by omega)
            rw [hja, hpn] at this
            simp at this
  · rw [hm] at e; cases e

/-- C84: without optional arguments every argument of an accepted call is bound. -/
theorem every_argument_bound {t : Types} {s : Sig} {args : List Arg} {numUsings : Nat} {out : List Slot}
    (wf : WellFormed s) (hno : ∀ a ∈ args, a.opt = false) (hb : Builds s args)
    (h : call t s args numUsings = .ok out) {j : Nat} (hj : j < args.length) :
    ∃ i : Nat, out[i]? = some (.given j) := by
  have wa : WellFormedArgs args := fun a ha h0 => by rw [hno a ha] at h0; cases h0
  have hopt : collectOptional args = [] := by
    rw [List.eq_nil_iff_forall_not_mem]
    intro k hk
    obtain ⟨b, hb1, hb2⟩ := collectOptional_mem.1 hk
    rw [hno b (List.mem_of_getElem? hb1)] at hb2; cases hb2
  have hroom : args.length ≤ (visible s).length := by
    have hm : matchCall t s args numUsings ≠ .fail := by
      intro e; unfold call at h; rw [e] at h; cases h
    have := (matchCall_cases (t := t) (numUsings := numUsings) hb hm).1
    rw [hopt, wf.max_eq] at this
    simpa using this
  rcases no_argument_lost wf wa hb h hroom (List.getElem?_eq_getElem hj) with c | c
  · exact c
  · rw [hno _ (List.getElem_mem hj)] at c; cases c.1

end Verif.CallArgs
