import Verif.CallArgsProps
/-!
# C84: which calls are accepted; no call breaks the compiler
-/
namespace Verif.CallArgs
open Spec

theorem vis_nodup {s : Sig} (wf : WellFormed s) : ((visible s).map (·.name)).Nodup :=
  wf.distinct.sublist ((List.filter_sublist).map _)

theorem noOpt {args : List Arg} (hno : ∀ a ∈ args, a.opt = false) :
    WellFormedArgs args ∧ collectOptional args = [] := by
  constructor
  · exact fun a ha h0 => by rw [hno a ha] at h0; cases h0
  · rw [List.eq_nil_iff_forall_not_mem]
    intro k hk
    obtain ⟨b, hb1, hb2⟩ := collectOptional_mem.1 hk
    rw [hno b (List.mem_of_getElem? hb1)] at hb2; cases hb2

theorem reorder_not_bug {s : Sig} {args : List Arg} (wf : WellFormed s) (opt0 : List Nat) :
    reorderByArgIDs (args.map (·.name)) opt0 s.params (s.min - args.length) ≠ .bug := by
  unfold reorderByArgIDs
  rw [fold_visible]
  have hinv := inv_fold args (s.min - args.length) opt0 _ (visible s) rfl (by
    intro p hp
    have := (List.mem_filter.1 hp).2
    simpa using this)
  unfold visible at hinv
  generalize hst : (List.filter (fun p => !p.inj) s.params).foldl (step (args.map (·.name))) _ = st at hinv ⊢
  simp only
  split
  · simp
  · have hu : st.usingsLeft = 0 := by
      rw [hinv.usings]
      have h1 := claims_plus_free (visible s) args
      have h2 := claims_positional_le (args := args) wf.named (vis_nodup wf)
      have h3 := wf.min_le
      unfold visible at h1 h2 h3
      omega
    rw [hu]
    simp only [ne_eq, not_true_eq_false, if_false]
    split <;> simp

/-- The positions of an accepted reordering cover the arguments and the required parameters. -/
theorem lines_cover {s : Sig} {args : List Arg} {r : Reorder} (wf : WellFormed s)
    (hno : ∀ a ∈ args, a.opt = false) (hroom : args.length ≤ (visible s).length)
    (hr : (collectNames args = [] ∧ r = reorderByNumUsings s.params.length args.length (s.min - args.length)) ∨
      reorderByArgIDs (args.map (·.name)) (collectOptional args) s.params (s.min - args.length) = .ok r) :
    Agrees s args r ∧ args.length ≤ (lines args r).length ∧ s.min ≤ (lines args r).length := by
  obtain ⟨wa, hopt⟩ := noOpt hno
  have hmin := wf.min_le
  have hv := visible_le s
  rcases hr with ⟨hn, hr⟩ | hr
  · refine ⟨hr ▸ agrees_positional wf (noNames hn) (by rw [wf.max_eq]; exact hroom), ?_⟩
    rw [hr]
    unfold reorderByNumUsings
    by_cases h0 : s.min - args.length = 0
    · rw [if_pos h0]
      simp only [lines, List.length_map, List.length_range]
      omega
    · rw [if_neg h0]
      simp only
      split
      · rename_i e
        have := congrArg List.length e
        simp only [List.length_map, List.length_range, List.length_nil] at this
        omega
      · simp only [lines, List.length_map, List.length_range]
        omega
  · refine ⟨agrees_named hr, ?_⟩
    have hall : ∀ j, j < args.length → ∃ i, expect (visible s) args (s.min - args.length) i = some j := by
      intro j hj
      rcases bound_or_optional wf wa hr hroom hj with c | c
      · exact c
      · rw [hopt] at c; cases c
    have hh := hits_eq wf.named (vis_nodup wf) hall
    obtain ⟨-, -, hrr⟩ := reorder_ok hr
    obtain ⟨k, e, hk, -, hk'⟩ :=
      dropMisses_spec (fullMap (visible s) args (s.min - args.length)) (s.min - args.length)
    have hl : (lines args r).length = k := by
      rw [hrr, e, ifNeeded_lines, List.length_take, Nat.min_eq_left hk]
    rw [hl]
    rw [fullMap_length] at hk'
    rcases hk' with e' | ⟨n, e'⟩
    · omega
    · rw [hh] at e'
      have : s.min - args.length ≤ Nat.max n (s.min - args.length) := Nat.le_max_right _ _
      omega

/-- Once reordered, the call is accepted or refused by the types. -/
theorem matchArgs_total {t : Types} {s : Sig} {args : List Arg} {r : Reorder} (wf : WellFormed s)
    (hb : Builds s args) (hopt : collectOptional args = [])
    (ha : Agrees s args r) (h1 : args.length ≤ (lines args r).length) (h2 : s.min ≤ (lines args r).length) :
    matchArgs t s args (s.isType && args.isEmpty) r ≠ .bug ∧
    ((∀ (i : Nat) (p : Param), s.params[i]? = some p →
      ∃ u, matchRes t args i p (expect (visible s) args (shortBy s args) i) = .ok u) →
      ∃ m, matchArgs t s args (s.isType && args.isEmpty) r = .ok m) ∧
    ∀ m, matchArgs t s args (s.isType && args.isEmpty) r = .ok m →
      (∀ (i : Nat) (p : Param), s.params[i]? = some p → Required p = true → i < (lines args r).length) →
      ∃ out, callerNode s args.length m = .ok out := by
  have hz := builds_zero hb
  have hn : loopLen s args (s.isType && args.isEmpty) r = (lines args r).length := by
    unfold loopLen; rw [hz]; exact Nat.max_eq_left h2
  have hle := ha.le
  have hloop : matchArgs t s args (s.isType && args.isEmpty) r = matchLoops t s args r (lines args r).length := by
    rw [matchArgs_eq wf.noRest, if_neg (by simp [hopt]), if_neg, hn]
    rintro ⟨-, h⟩
    simp at h; omega
  have hdrop : (List.range (lines args r).length).drop (restStart s) = [] := by
    rw [restStart_eq wf.noRest]
    apply List.drop_eq_nil_of_le
    rw [List.length_range]; exact hle
  have hone : ∀ i, i < (lines args r).length → ∃ p, s.params[i]? = some p ∧
      matchOne t s args r i = matchRes t args i p (expect (visible s) args (shortBy s args) i) := by
    intro i hi
    have hp := List.getElem?_eq_getElem (l := s.params) (i := i) (by omega)
    exact ⟨_, hp, matchOne_in wf.noRest hp (ha.lt i hi)⟩
  refine ⟨?_, ?_, ?_⟩
  · rw [hloop]
    unfold matchLoops
    have hnb := matchLoop_not_bug t s args r (List.range (lines args r).length) (by
      intro i hi
      obtain ⟨p, hp, e⟩ := hone i (List.mem_range.1 hi)
      rw [e]
      rcases he : expect (visible s) args (shortBy s args) i with _ | j
      · simp only [matchRes]
        split
        · simp
        · split <;> simp
      · have hj := expect_lt he
        simp only [matchRes, List.getElem?_eq_getElem hj]
        split
        · simp
        · split <;> simp)
    rcases hm : matchLoop t s args r (List.range (lines args r).length) with us | _ | _
    · simp only [hdrop, restLoop]; simp
    · simp
    · exact absurd hm hnb
  · intro hall
    rw [hloop]
    unfold matchLoops
    have : ∀ (is : List Nat), (∀ i ∈ is, i < (lines args r).length) → ∃ us, matchLoop t s args r is = .ok us := by
      intro is
      induction is with
      | nil => intro _; exact ⟨[], rfl⟩
      | cons i is ih =>
        intro hi
        obtain ⟨us, hus⟩ := ih fun k hk => hi k (by simp [hk])
        obtain ⟨p, hp, e⟩ := hone i (hi i (by simp))
        obtain ⟨u, hu⟩ := hall i p hp
        refine ⟨if u then i :: us else us, ?_⟩
        rw [matchLoop, e, hu]
        simp only [hus]
    obtain ⟨us, hus⟩ := this (List.range (lines args r).length) (by simp)
    rw [hus]
    simp only [hdrop, restLoop]
    exact ⟨_, rfl⟩
  · intro m hm hreq
    obtain ⟨hmr, hml⟩ := matchArgs_ok wf.noRest hm
    rw [hn] at hml
    obtain ⟨hus, hall⟩ := matchLoop_spec t s args r _ _ List.nodup_range hml
    unfold callerNode
    rw [hmr]
    simp only
    rw [callerNode_cells ha wf.named (vis_nodup wf)]
    simp only
    obtain ⟨out1, hcv⟩ := convert_ok m.usings ((lines args r).map cellOf) (by
      intro i hi
      rw [List.length_map]; exact List.mem_range.1 (hus i hi))
    rw [hcv]
    simp only
    obtain ⟨c1, c2, c3⟩ := convert_spec _ _ _ hcv
    rw [List.length_map] at c1 c2 c3
    have hg : gather (restStart s) out1 = out1 := by
      unfold gather
      rw [restStart_eq wf.noRest, if_neg]
      omega
    rw [hg]
    split
    · exact ⟨_, rfl⟩
    · apply fill_ok
      intro i p a hp hres
      have hip : i < s.params.length := (List.getElem?_eq_some_iff.1 hp).1
      rw [resize_get _ _ _ hip] at hres
      by_cases hrq : Required p = true
      · have hi := hreq i p hp hrq
        rw [if_pos (by omega), c3 i hi] at hres
        obtain ⟨u, hu, huu⟩ := hall i (List.mem_range.2 hi)
        rw [matchOne_in wf.noRest hp (ha.lt i hi)] at hu
        by_cases hmem : i ∈ m.usings
        · rw [if_pos hmem] at hres
          cases hres
          exact ⟨_, rfl⟩
        · rw [if_neg hmem, List.getElem?_map, ha.lt i hi] at hres
          rcases he : expect (visible s) args (shortBy s args) i with _ | j
          · exfalso
            rw [he] at hu
            unfold Required at hrq
            simp only [Bool.and_eq_true, Bool.not_eq_true'] at hrq
            simp only [matchRes, hrq.1, hrq.2] at hu
            cases u
            · simp at hu
              split at hu <;> cases hu
            · exact hmem (huu.1 rfl)
          · rw [he] at hres
            simp only [Option.map_some, cellOf, Option.some.injEq] at hres
            subst hres
            exact ⟨_, rfl⟩
      · unfold Required at hrq
        cases a
        case empty =>
          simp only [fillOne]
          cases hd : p.dflt
          · cases hi : p.impl
            · rw [hd, hi] at hrq; exact absurd rfl hrq
            · exact ⟨.implicit, by simp⟩
          · exact ⟨.dflt, by simp⟩
        all_goals exact ⟨_, rfl⟩

theorem required_visible {s : Sig} (wf : WellFormed s) {i : Nat} {p : Param} (hp : s.params[i]? = some p)
    (hr : Required p = true) : (visible s)[i]? = some p := by
  apply visible_get wf hp
  obtain ⟨injected, e, hi⟩ := wf.injLast
  rcases Nat.lt_or_ge i (visible s).length with c | c
  · rw [e, List.getElem?_append_left c] at hp
    have := (List.mem_filter.1 (List.mem_of_getElem? hp)).2
    simpa using this
  · rw [e, List.getElem?_append_right c] at hp
    have := (hi p (List.mem_of_getElem? hp)).1
    unfold Required at hr
    rw [this] at hr
    simp at hr

theorem requiredFirst_lt {s : Sig} (wf : WellFormed s) (hrf : RequiredFirst s) {i : Nat} {p : Param}
    (hp : s.params[i]? = some p) (hr : Required p = true) : i < s.min := by
  have hv := required_visible wf hp hr
  obtain ⟨req, opt, e, h1, h2⟩ := hrf
  have hi : i < req.length := by
    rcases Nat.lt_or_ge i req.length with c | c
    · exact c
    · rw [e, List.getElem?_append_right c] at hv
      have := h2 p (List.mem_of_getElem? hv)
      rw [hr] at this; cases this
  have hcount : ((visible s).filter Required).length = req.length := by
    rw [e, List.filter_append, List.filter_eq_self.2 h1, List.filter_eq_nil_iff.2 (by
      intro p hp; rw [h2 p hp]; simp), List.append_nil]
  rcases wf.min_eq with h | ⟨-, -, h⟩
  · omega
  · omega

/-- C84: without optional arguments a call never breaks the compiler, provided required parameters come first, as in
every function the parser builds without `implicit name!` (`declare_requiredFirst`), or the call names an argument and
no `using` is in scope. -/
theorem call_never_breaks_compiler {t : Types} {s : Sig} {args : List Arg} {numUsings : Nat} (wf : WellFormed s)
    (hno : ∀ a ∈ args, a.opt = false) (hb : Builds s args)
    (hs : RequiredFirst s ∨ (numUsings = 0 ∧ ∃ a ∈ args, a.name ≠ "")) : call t s args numUsings ≠ .bug := by
  obtain ⟨wa, hopt⟩ := noOpt hno
  intro hbug
  unfold call at hbug
  by_cases hf : matchCall t s args numUsings = .fail
  · rw [hf] at hbug; cases hbug
  obtain ⟨h1, h2, h3⟩ := matchCall_cases (t := t) (numUsings := numUsings) hb hf
  have hroom : args.length ≤ (visible s).length := by
    rw [hopt, wf.max_eq] at h1; simpa using h1
  have key : ∀ r, ((collectNames args = [] ∧ r = reorderByNumUsings s.params.length args.length (s.min - args.length)) ∨
      reorderByArgIDs (args.map (·.name)) (collectOptional args) s.params (s.min - args.length) = .ok r) →
      matchCall t s args numUsings = matchArgs t s args (s.isType && args.isEmpty) r → False := by
    intro r hr e
    obtain ⟨ha, l1, l2⟩ := lines_cover wf hno hroom hr
    obtain ⟨nb, -, hc⟩ := matchArgs_total (t := t) wf hb hopt ha l1 l2
    rcases hm : matchArgs t s args (s.isType && args.isEmpty) r with m | _ | _
    · rw [e, hm] at hbug
      simp only at hbug
      obtain ⟨out, ho⟩ := hc m hm (by
        intro i p hp hrq
        rcases hs with hrf | ⟨hu0, a, haa, han⟩
        · have := requiredFirst_lt wf hrf hp hrq; omega
        · rcases hr with ⟨hn, -⟩ | hr
          · exact absurd (noNames hn a haa) han
          · obtain ⟨g1, -, -⟩ := reorder_ok hr
            have hnu : s.min - args.length = 0 := by omega
            have hall : ∀ j, j < args.length → ∃ i, expect (visible s) args (s.min - args.length) i = some j := by
              intro j hj
              rcases bound_or_optional wf wa hr hroom hj with c | c
              · exact c
              · rw [hopt] at c; cases c
            have hh := hits_eq wf.named (vis_nodup wf) hall
            have hsp := bound_split (visible s) args (s.min - args.length)
            have hsome := (boundReq_le (visible s) args (s.min - args.length)).2.1 (by omega) i p
              (required_visible wf hp hrq) hrq
            rcases Nat.lt_or_ge i (lines args r).length with c | c
            · exact c
            · have := ha.ge i c
              unfold shortBy at this
              rw [this] at hsome; cases hsome)
      rw [ho] at hbug; cases hbug
    · rw [e, hm] at hbug; cases hbug
    · exact nb hm
  rcases h3 with ⟨hn, e⟩ | ⟨hn, ⟨r, hr, e⟩ | ⟨hr, e⟩⟩
  · exact key _ (.inl ⟨hn, rfl⟩) e
  · exact key r (.inr hr) e
  · exact reorder_not_bug wf _ hr

/-- A call a reader would expect to be accepted: not too many arguments, every name is the name of a parameter and
used once, every required parameter gets an argument, every argument fits, and `name!` parameters are named. -/
structure Good (t : Types) (s : Sig) (args : List Arg) : Prop where
  room : args.length ≤ (visible s).length
  known : ∀ a ∈ args, a.name ≠ "" → ∃ p ∈ visible s, p.name = a.name
  once : ∀ (j k : Nat) (a b : Arg), args[j]? = some a → args[k]? = some b → a.name = b.name → a.name ≠ "" → j = k
  supplied : ∀ (i : Nat) (p : Param), (visible s)[i]? = some p → Required p = true →
    (expect (visible s) args 0 i).isSome = true
  fit : ∀ (i j : Nat) (p : Param) (a : Arg), (visible s)[i]? = some p → args[j]? = some a →
    expect (visible s) args 0 i = some j → t.fits i j = true ∧ (p.must = true → a.name ≠ "")

/-- C84: with no `using` in scope and no optional arguments, exactly the calls one expects are accepted. -/
theorem call_accepted_iff {t : Types} {s : Sig} {args : List Arg} (wf : WellFormed s) (hrf : RequiredFirst s)
    (hno : ∀ a ∈ args, a.opt = false) (hb : Builds s args) (hsup : ∀ i, t.supplies i = false) :
    (∃ out, call t s args 0 = .ok out) ↔ Good t s args := by
  obtain ⟨wa, hopt⟩ := noOpt hno
  have hd := vis_nodup wf
  constructor
  · rintro ⟨out, h⟩
    have hf : matchCall t s args 0 ≠ .fail := by
      intro e; unfold call at h; rw [e] at h; cases h
    obtain ⟨h1, h2, h3⟩ := matchCall_cases (t := t) (numUsings := 0) hb hf
    have hroom : args.length ≤ (visible s).length := by
      rw [hopt, wf.max_eq] at h1; simpa using h1
    have hshort : shortBy s args = 0 := by unfold shortBy; omega
    obtain ⟨ho, ht⟩ := call_binds wf wa hb h
    have hbound : ∀ j, j < args.length → ∃ i, expect (visible s) args 0 i = some j := by
      intro j hj
      obtain ⟨i, hi⟩ := every_argument_bound wf hno hb h hj
      rw [ho] at hi
      have := out_given hi
      rw [hshort] at this
      exact ⟨i, this⟩
    have hwho : ∀ (j : Nat) (a : Arg), args[j]? = some a → a.name ≠ "" →
        ∃ p ∈ visible s, p.name = a.name ∧ named args p.name = some j := by
      intro j a ha hne
      obtain ⟨i, hi⟩ := hbound j (List.getElem?_eq_some_iff.1 ha).1
      unfold expect at hi
      rcases hp : (visible s)[i]? with _ | p
      · rw [hp] at hi; cases hi
      · rw [hp] at hi
        simp only at hi
        rcases hn : named args p.name with _ | k
        · rw [hn] at hi
          simp only at hi
          split at hi
          · cases hi
          · obtain ⟨b, hb1, hb2⟩ := positional_mem.1 (List.mem_of_getElem? hi)
            rw [ha] at hb1; cases hb1
            exact absurd hb2 hne
        · rw [hn] at hi; cases hi
          obtain ⟨b, hb1, hb2⟩ := named_some hn
          rw [ha] at hb1; cases hb1
          exact ⟨p, List.mem_of_getElem? hp, hb2.symm, hn⟩
    refine ⟨hroom, ?_, ?_, ?_, ?_⟩
    · intro a ha hne
      obtain ⟨j, hj⟩ := List.mem_iff_getElem?.1 ha
      obtain ⟨p, hp, e, -⟩ := hwho j a hj hne
      exact ⟨p, hp, e⟩
    · intro j k a b ha hb' hab hne
      obtain ⟨p, -, e1, e2⟩ := hwho j a ha hne
      obtain ⟨q, -, e3, e4⟩ := hwho k b hb' (hab ▸ hne)
      rw [e1] at e2
      rw [e3, ← hab, e2] at e4
      exact Option.some.inj e4
    · intro i p hp hr
      obtain ⟨u, hu⟩ := ht i p (visible_params wf hp)
      rw [hshort] at hu
      unfold Required at hr
      simp only [Bool.and_eq_true, Bool.not_eq_true'] at hr
      rcases he : expect (visible s) args 0 i with _ | j
      · rw [he] at hu
        simp [matchRes, hr.1, hr.2, hsup i] at hu
      · rfl
    · intro i j p a hp ha he
      exact accepted_arguments_fit wf wa hb h (visible_params wf hp)
        (by rw [ho]; apply given_out; rw [hshort]; exact he) ha
  · intro g
    have hclaim : ∀ (j : Nat) (a : Arg), args[j]? = some a → a.name ≠ "" → j ∈ claims (visible s) args := by
      intro j a ha hne
      obtain ⟨p, hp, e⟩ := g.known a (List.mem_of_getElem? ha) hne
      rw [claims_mem]
      refine ⟨p, hp, ?_⟩
      rcases hn : named args p.name with _ | k
      · exact absurd e.symm (named_none hn a (List.mem_of_getElem? ha))
      · obtain ⟨b, hb1, hb2⟩ := named_some hn
        have := g.once j k a b ha hb1 (e.symm.trans hb2.symm) hne
        rw [this]
    have hle := claims_positional_le (args := args) wf.named hd
    have hge : args.length ≤ (claims (visible s) args).length + (positional args).length := by
      rw [← List.length_append]
      have h1 : (List.range args.length).toFinset ⊆ (claims (visible s) args ++ positional args).toFinset := by
        intro j hj
        rw [List.mem_toFinset, List.mem_range] at hj
        rw [List.mem_toFinset, List.mem_append]
        have ha := List.getElem?_eq_getElem hj
        by_cases hne : args[j].name = ""
        · exact .inr (positional_mem.2 ⟨_, ha, hne⟩)
        · exact .inl (hclaim j _ ha hne)
      have := Finset.card_le_card h1
      rwa [List.toFinset_card_of_nodup List.nodup_range,
        List.toFinset_card_of_nodup (claims_positional_nodup wf.named hd), List.length_range] at this
    have hall : ∀ j, j < args.length → ∃ i, expect (visible s) args 0 i = some j := by
      intro j hj
      have ha := List.getElem?_eq_getElem hj
      by_cases hne : args[j].name = ""
      · obtain ⟨i, -, hi⟩ := positional_bound (V := visible s) (nu := 0) (by have := g.room; omega)
          (positional_mem.2 ⟨_, ha, hne⟩)
        exact ⟨i, hi⟩
      · obtain ⟨p, hp, hn⟩ := claims_mem.1 (hclaim j _ ha hne)
        obtain ⟨i, hi⟩ := List.mem_iff_getElem?.1 hp
        exact ⟨i, expect_named hi hn⟩
    have hh := hits_eq wf.named hd hall
    have hsp := bound_split (visible s) args 0
    have hrb := (boundReq_le (visible s) args 0).2.2 g.supplied
    have hmin : s.min ≤ args.length := by
      rcases wf.min_eq with e | ⟨hty, e, -⟩
      · omega
      · have := hb hty
        rcases args with _ | ⟨a, as⟩
        · exact absurd rfl this
        · simp only [List.length_cons]; omega
    have hshort : s.min - args.length = 0 := by omega
    have hres : ∀ (i : Nat) (p : Param), s.params[i]? = some p →
        ∃ u, matchRes t args i p (expect (visible s) args (shortBy s args) i) = .ok u := by
      intro i p hp
      unfold shortBy
      rw [hshort]
      rcases he : expect (visible s) args 0 i with _ | j
      · simp only [matchRes]
        by_cases hr : Required p = true
        · have := g.supplied i p (required_visible wf hp hr) hr
          rw [he] at this; cases this
        · refine ⟨false, ?_⟩
          rw [if_pos]
          unfold Required at hr
          cases hd : p.dflt <;> cases hi : p.impl <;> simp_all
      · have hj := expect_lt he
        have ha := List.getElem?_eq_getElem hj
        have hiv : i < (visible s).length := by
          rcases Nat.lt_or_ge i (visible s).length with c | c
          · exact c
          · rw [expect_past _ _ _ c] at he; cases he
        have hpv : (visible s)[i]? = some p := by
          have h1 := List.getElem?_eq_getElem hiv
          have h2 := visible_params wf h1
          rw [hp] at h2; rw [h1, ← h2]
        obtain ⟨f1, f2⟩ := g.fit i j p _ hpv ha he
        simp only [matchRes, ha]
        refine ⟨false, ?_⟩
        rw [if_neg, if_pos f1]
        intro hc
        simp only [Bool.and_eq_true, beq_iff_eq] at hc
        exact f2 hc.1 hc.2
    have hnf : matchCall t s args 0 ≠ .fail := by
      have key : ∀ r, ((collectNames args = [] ∧ r = reorderByNumUsings s.params.length args.length (s.min - args.length)) ∨
          reorderByArgIDs (args.map (·.name)) (collectOptional args) s.params (s.min - args.length) = .ok r) →
          matchArgs t s args (s.isType && args.isEmpty) r ≠ .fail := by
        intro r hr
        obtain ⟨ha, l1, l2⟩ := lines_cover wf hno g.room hr
        obtain ⟨m, hm⟩ := (matchArgs_total (t := t) wf hb hopt ha l1 l2).2.1 hres
        rw [hm]; simp
      unfold matchCall
      have hz := builds_zero hb
      simp only [hz, Bool.not_false, Bool.true_and, if_true, hopt]
      rw [if_neg (by
        simp only [List.length_nil, Nat.sub_zero, Nat.add_zero, Bool.or_eq_true, decide_eq_true_eq, not_or, Nat.not_lt]
        exact ⟨by rw [wf.max_eq]; exact g.room, hmin⟩)]
      by_cases hn : collectNames args = []
      · rw [if_pos hn]
        have := key _ (.inl ⟨hn, rfl⟩)
        rwa [hz] at this
      · rw [if_neg hn, someName hn]
        rcases hr : reorderByArgIDs (args.map (·.name)) [] s.params (s.min - args.length) with r | _ | _
        · simp only
          have := key r (.inr (by rw [hopt]; exact hr))
          rwa [hz] at this
        · exfalso
          unfold reorderByArgIDs at hr
          rw [fold_visible] at hr
          have hinv := inv_fold args (s.min - args.length) [] _ (visible s) rfl (by
            intro p hp
            have := (List.mem_filter.1 hp).2
            simpa using this)
          unfold visible at hinv
          generalize hst : (List.filter (fun p => !p.inj) s.params).foldl (step (args.map (·.name))) _ = st at hinv hr
          simp only [List.length_map] at hr
          have hb1 := hinv.bound
          have hb2 := hinv.required
          have hb3 := hinv.used
          have hb4 := hinv.optional
          rw [hshort] at hb1
          simp only [List.filter_nil] at hb4
          rw [if_neg (by
            unfold visible at hrb hsp hh
            rw [hb1, hb2]; omega)] at hr
          split at hr
          · cases hr
          · rw [if_neg (by
              rw [unnamed_count, hb4, hb3]
              unfold visible at hle hge
              simp only [List.length_nil]
              omega)] at hr
            cases hr
        · simp
    have hnb := call_never_breaks_compiler (t := t) (numUsings := 0) wf hno hb (.inl hrf)
    rcases hc : call t s args 0 with out | _ | _
    · exact ⟨out, rfl⟩
    · exfalso
      unfold call at hc
      rcases hm : matchCall t s args 0 with m | _ | _
      · rw [hm] at hc
        simp only at hc
        unfold callerNode at hc
        obtain ⟨h1, h2, h3⟩ := matchCall_cases (t := t) (numUsings := 0) hb hnf
        have key : ∀ r, ((collectNames args = [] ∧ r = reorderByNumUsings s.params.length args.length (s.min - args.length)) ∨
            reorderByArgIDs (args.map (·.name)) (collectOptional args) s.params (s.min - args.length) = .ok r) →
            matchCall t s args 0 = matchArgs t s args (s.isType && args.isEmpty) r → False := by
          intro r hr e
          rw [hm] at e
          obtain ⟨ha, l1, l2⟩ := lines_cover wf hno g.room hr
          obtain ⟨out, ho⟩ := (matchArgs_total (t := t) wf hb hopt ha l1 l2).2.2 m e.symm (by
            intro i p hp hrq
            have := requiredFirst_lt wf hrf hp hrq; omega)
          unfold callerNode at ho
          rw [hc] at ho; cases ho
        rcases h3 with ⟨hn, e⟩ | ⟨hn, ⟨r, hr, e⟩ | ⟨hr, e⟩⟩
        · exact key _ (.inl ⟨hn, rfl⟩) e
        · exact key r (.inr hr) e
        · exact reorder_not_bug wf _ hr
      · exact hnf hm
      · rw [hm] at hc; cases hc
    · exact absurd hc hnb

end Verif.CallArgs
