import Verif.CallArgsAccept
/-!
# C84: declarations give well-formed signatures; named arguments commute; rest parameters; findings
-/
namespace Verif.CallArgs
open Spec

/-! ## Declarations -/

theorem insertAt_perm {l l' : List Param} {i : Nat} {p : Param} (h : insertAt l i p = .ok l') :
    l'.Perm (p :: l) := by
  unfold insertAt at h
  split at h
  · cases h
    have := List.perm_middle (a := p) (l₁ := l.take i) (l₂ := l.drop i)
    rwa [List.take_append_drop] at this
  · cases h

theorem declLoop_perm : ∀ (ps out imp : List Param) (fd : Option Nat) (out' imp' : List Param),
    declLoop ps out imp fd = .ok (out', imp') → (out' ++ imp').Perm (out ++ imp ++ ps)
  | [], out, imp, fd, out', imp', h => by
    cases h; simp
  | p :: ps, out, imp, fd, out', imp', h => by
    have push : (out ++ [p] ++ imp ++ ps).Perm (out ++ imp ++ p :: ps) := by
      simp only [List.append_assoc]
      apply List.Perm.append_left
      simp only [List.singleton_append]
      exact List.perm_middle.symm
    have pushI : (out ++ (imp ++ [p]) ++ ps).Perm (out ++ imp ++ p :: ps) := by simp
    rw [declLoop.eq_def] at h
    dsimp only at h
    split at h
    · split at h
      · cases h
      · exact (declLoop_perm _ _ _ _ _ _ h).trans push
    · split at h
      · split at h
        · cases h
        · split at h
          · exact (declLoop_perm _ _ _ _ _ _ h).trans pushI
          · rename_i k _ _
            rcases hi : insertAt out k p with out2 | _ | _
            · rw [hi] at h
              refine (declLoop_perm _ _ _ _ _ _ h).trans ?_
              refine List.Perm.trans ?_ push
              apply List.Perm.append_right
              apply List.Perm.append_right
              exact (insertAt_perm hi).trans (List.perm_append_singleton p out).symm
            · rw [hi] at h; cases h
            · rw [hi] at h; cases h
      · split at h
        · exact (declLoop_perm _ _ _ _ _ _ h).trans pushI
        · exact (declLoop_perm _ _ _ _ _ _ h).trans push

/-- C84: a declaration keeps all its parameters and adds none. -/
theorem declaration_keeps_parameters {ps out : List Param} (h : parseArgsDecl ps = .ok out) : out.Perm ps := by
  unfold parseArgsDecl at h
  rcases hl : declLoop ps [] [] none with ⟨o, i⟩ | _ | _
  · rw [hl] at h; cases h
    simpa using declLoop_perm ps [] [] none o i hl
  · rw [hl] at h; cases h
  · rw [hl] at h; cases h

/-- Required parameters, then defaulted ones from `fd` on. -/
def Ordered (out : List Param) : Option Nat → Prop
  | none => ∀ p ∈ out, Required p = true
  | some k => k ≤ out.length ∧ (∀ p ∈ out.take k, Required p = true) ∧ ∀ p ∈ out.drop k, Required p = false

theorem declLoop_ordered : ∀ (ps out imp : List Param) (fd : Option Nat),
    (∀ p ∈ ps, p.impl = true → p.must = false) → Ordered out fd → (∀ p ∈ imp, p.impl = true) →
    match declLoop ps out imp fd with
    | .ok (out', imp') => (∃ fd', Ordered out' fd') ∧ ∀ p ∈ imp', p.impl = true
    | .fail => True
    | .bug => False
  | [], out, imp, fd, _, ho, hi => ⟨⟨fd, ho⟩, hi⟩
  | p :: ps, out, imp, fd, hm, ho, hi => by
    have hm' : ∀ q ∈ ps, q.impl = true → q.must = false := fun q hq => hm q (by simp [hq])
    rw [declLoop.eq_def]
    dsimp only
    by_cases hd : p.dflt = true
    · rw [if_pos hd]
      by_cases hp : p.impl = true
      · rw [if_pos hp]; trivial
      · rw [if_neg hp]
        apply declLoop_ordered _ _ _ _ hm' _ hi
        have hreq : Required p = false := by unfold Required; simp [hd]
        rcases fd with _ | k
        · refine ⟨by simp, ?_, ?_⟩
          · intro q hq
            simp only [Option.getD_none, List.take_left'] at hq
            exact ho q hq
          · intro q hq
            simp only [Option.getD_none, List.drop_left', List.mem_singleton] at hq
            rw [hq]; exact hreq
        · obtain ⟨h1, h2, h3⟩ := ho
          refine ⟨by simp; omega, ?_, ?_⟩
          · intro q hq
            simp only [Option.getD_some] at hq
            rw [List.take_append_of_le_length h1] at hq
            exact h2 q hq
          · intro q hq
            simp only [Option.getD_some] at hq
            rw [List.drop_append_of_le_length h1] at hq
            rcases List.mem_append.1 hq with c | c
            · exact h3 q c
            · rw [List.mem_singleton.1 c]; exact hreq
    · rw [if_neg hd]
      rcases fd with _ | k
      · simp only
        by_cases hp : p.impl = true
        · rw [if_pos hp]
          apply declLoop_ordered _ _ _ _ hm' ho
          intro q hq
          rcases List.mem_append.1 hq with c | c
          · exact hi q c
          · rw [List.mem_singleton.1 c]; exact hp
        · rw [if_neg hp]
          apply declLoop_ordered _ _ _ _ hm' _ hi
          intro q hq
          rcases List.mem_append.1 hq with c | c
          · exact ho q c
          · rw [List.mem_singleton.1 c]; unfold Required; simp [hd, hp]
      · simp only
        by_cases hmust : p.must = true
        · rw [if_neg (by simp [hmust])]
          have hp : ¬ p.impl = true := by
            intro c
            have := hm p (by simp) c
            rw [hmust] at this; cases this
          rw [if_neg hp]
          obtain ⟨h1, h2, h3⟩ := ho
          unfold insertAt
          rw [if_pos h1]
          simp only
          apply declLoop_ordered _ _ _ _ hm' _ hi
          have hl : (out.take k).length = k := by rw [List.length_take, Nat.min_eq_left h1]
          refine ⟨by simp; omega, ?_, ?_⟩
          · intro q hq
            rw [show k + 1 = (out.take k).length + 1 by rw [hl], List.take_length_add_append] at hq
            rcases List.mem_append.1 hq with c | c
            · exact h2 q c
            · rw [List.take_succ_cons, List.take_zero, List.mem_singleton] at c
              rw [c]; unfold Required; simp [hd, hp]
          · intro q hq
            rw [show k + 1 = (out.take k).length + 1 by rw [hl], List.drop_length_add_append] at hq
            rw [List.drop_succ_cons, List.drop_zero] at hq
            exact h3 q hq
        · rw [if_pos (by simpa using hmust)]; trivial

/-- C84: the parser never breaks on a parameter list without `implicit name!`. -/
theorem declaration_never_breaks_parser {ps : List Param} (hm : ∀ p ∈ ps, p.impl = true → p.must = false) :
    parseArgsDecl ps ≠ .bug := by
  have := declLoop_ordered ps [] [] none hm (fun p hp => (by cases hp)) (fun p hp => (by cases hp))
  unfold parseArgsDecl
  rcases hl : declLoop ps [] [] none with ⟨o, i⟩ | _ | _
  · simp
  · simp
  · rw [hl] at this; exact this.elim

theorem arityLoop_eq : ∀ (ps : List Param) (i min max : Nat), (∀ p ∈ ps, p.rest = false) →
    max + ps.length < noMax → arityLoop ps i min max 0 =
      .ok (min + ((ps.filter fun p => !p.inj).filter Required).length, max + (ps.filter fun p => !p.inj).length, 0)
  | [], i, min, max, _, _ => by simp [arityLoop]
  | p :: ps, i, min, max, hr, hm => by
    rw [List.length_cons] at hm
    rw [arityLoop]
    have hrp := hr p (by simp)
    simp only [hrp, Bool.false_eq_true, if_false]
    rw [if_pos (by omega : max ≠ noMax)]
    have ih := fun mi ma h => arityLoop_eq ps (i + 1) mi ma (fun q hq => hr q (by simp [hq])) h
    cases hinj : p.inj
    · simp only [Bool.not_false, if_true, Bool.true_and]
      simp only [List.filter_cons, hinj, Bool.not_false, if_true]
      rcases hq : (!p.dflt && !p.impl) with _ | _
      · rw [if_neg (by simp), ih _ _ (by omega), if_neg (by unfold Required; rw [hq]; simp)]
        simp only [List.length_cons]
        congr 3; omega
      · rw [if_pos rfl, ih _ _ (by omega), if_pos (by unfold Required; rw [hq])]
        simp only [List.length_cons]
        congr 2
        · omega
        · congr 1; omega
    · simp only [Bool.not_true, Bool.false_and, Bool.false_eq_true, if_false]
      rw [ih _ _ (by omega), List.filter_cons, if_neg (by simp [hinj])]

/-- What the compiler ensures about the parameters a user declares and those the solver injects. -/
structure Declared (ps injected : List Param) : Prop where
  plain : ∀ p ∈ ps, p.inj = false ∧ p.rest = false ∧ p.name ≠ ""
  inj : ∀ p ∈ injected, p.inj = true ∧ p.impl = true ∧ p.rest = false
  distinct : ((ps ++ injected).map (·.name)).Nodup
  few : (ps ++ injected).length < noMax

theorem declare_ok {ps injected : List Param} {s : Sig} (hd : Declared ps injected)
    (h : declare ps injected = .ok s) : ∃ out, parseArgsDecl ps = .ok out ∧ out.Perm ps ∧
      s.params = out ++ injected ∧ visible s = out ∧ s.min = (out.filter Required).length ∧ s.max = out.length ∧
      s.rest1b = 0 ∧ s.isType = false := by
  unfold declare at h
  rcases hp : parseArgsDecl ps with out | _ | _
  · rw [hp] at h
    simp only at h
    have hperm := declaration_keeps_parameters hp
    have hplain : ∀ p ∈ out, p.inj = false ∧ p.rest = false ∧ p.name ≠ "" := fun p hpo => hd.plain p (hperm.mem_iff.1 hpo)
    have hvis : (out ++ injected).filter (fun p => !p.inj) = out := by
      rw [List.filter_append, List.filter_eq_self.2 (by intro p hp; simp [(hplain p hp).1]),
        List.filter_eq_nil_iff.2 (by intro p hp; simp [(hd.inj p hp).1]), List.append_nil]
    unfold fnSig at h
    rw [arityLoop_eq (out ++ injected) 0 0 0 (by
        intro p hp
        rcases List.mem_append.1 hp with c | c
        · exact (hplain p c).2.1
        · exact (hd.inj p c).2.2) (by
        have := hd.few
        rw [List.length_append] at this ⊢
        have := hperm.length_eq
        omega), hvis] at h
    simp only [Nat.zero_add, R.ok.injEq] at h
    subst h
    exact ⟨out, rfl, hperm, rfl, hvis, rfl, rfl, rfl, rfl⟩
  · rw [hp] at h; cases h
  · rw [hp] at h; cases h

/-- C84: a declared function has a well-formed signature. -/
theorem declare_wellFormed {ps injected : List Param} {s : Sig} (hd : Declared ps injected)
    (h : declare ps injected = .ok s) : WellFormed s := by
  obtain ⟨out, -, hperm, h1, h2, h3, h4, h5, h6⟩ := declare_ok hd h
  refine ⟨⟨injected, by rw [h1, h2], fun p hp => ⟨(hd.inj p hp).2.1, (hd.inj p hp).1⟩⟩, ?_, ?_, ?_, ?_, ?_, h5, ?_⟩
  · intro p hp
    rw [h2] at hp
    exact (hd.plain p (hperm.mem_iff.1 hp)).2.2
  · rw [h1]
    exact (((hperm.append_right injected).map (·.name)).nodup_iff).2 hd.distinct
  · rw [h2, h3]; exact List.length_filter_le _ _
  · rw [h2, h4]
  · rw [h2]; exact .inl h3
  · intro e; rw [h6] at e; cases e

/-- C84: a function declared without `implicit name!` has its required parameters first. -/
theorem declare_requiredFirst {ps injected : List Param} {s : Sig} (hd : Declared ps injected)
    (hm : ∀ p ∈ ps, p.impl = true → p.must = false) (h : declare ps injected = .ok s) : RequiredFirst s := by
  obtain ⟨out, hp, -, h1, h2, -⟩ := declare_ok hd h
  have := declLoop_ordered ps [] [] none hm (fun p hp => (by cases hp)) (fun p hp => (by cases hp))
  unfold parseArgsDecl at hp
  rcases hl : declLoop ps [] [] none with ⟨o, i⟩ | _ | _
  · rw [hl] at hp this
    cases hp
    obtain ⟨⟨fd, ho⟩, hi⟩ := this
    have himp : ∀ p ∈ i, Required p = false := fun p hp => by unfold Required; simp [hi p hp]
    rcases fd with _ | k
    · exact ⟨o, i, h2, ho, himp⟩
    · obtain ⟨g1, g2, g3⟩ := ho
      refine ⟨o.take k, o.drop k ++ i, ?_, g2, ?_⟩
      · rw [h2, ← List.append_assoc, List.take_append_drop]
      · intro p hp
        rcases List.mem_append.1 hp with c | c
        · exact g3 p c
        · exact himp p c
  · rw [hl] at hp; cases hp
  · rw [hl] at hp; cases hp

/-- C84: the constructor of a struct has a well-formed signature. -/
theorem typeSig_wellFormed {members : List Param}
    (hp : ∀ m ∈ members, m.inj = false ∧ m.impl = false ∧ m.name ≠ "")
    (hd : (members.map (·.name)).Nodup) : WellFormed (typeSig members) := by
  have hvis : visible (typeSig members) = members := by
    unfold visible typeSig
    exact List.filter_eq_self.2 (by intro m hm; simp [(hp m hm).1])
  have hreq : (members.filter Required).length = (members.filter fun m => !m.dflt).length := by
    congr 1
    apply List.filter_congr
    intro m hm
    unfold Required; simp [(hp m hm).2.1]
  have hle : (members.filter fun m => !m.dflt).length ≤ members.length := List.length_filter_le _ _
  refine ⟨⟨[], by rw [hvis]; simp [typeSig], fun p hp => (by cases hp)⟩, ?_, hd, ?_, ?_, ?_, rfl, ?_⟩
  · intro m hm; rw [hvis] at hm; exact (hp m hm).2.2
  · rw [hvis]; unfold typeSig; simp only; split <;> omega
  · rw [hvis]; rfl
  · rw [hvis, hreq]; unfold typeSig; simp only
    split
    · rename_i h; exact .inr ⟨trivial, by omega, h.2⟩
    · exact .inl rfl
  · intro _
    rw [hvis]
    refine ⟨rfl, ?_⟩
    intro hne
    unfold typeSig
    simp only
    have : members.length ≠ 0 := fun e => hne (List.length_eq_zero_iff.1 e)
    split <;> omega

/-! ## Named arguments commute -/

/-- C84: when every argument is named, writing the arguments in another order changes nothing. -/
theorem order_of_named_arguments_irrelevant {t t' : Types} {s : Sig} {args args' : List Arg} {u u' : Nat}
    {out out' : List Slot} (wf : WellFormed s) (hb : Builds s args) (hn : ∀ a ∈ args, a.name ≠ "")
    (hperm : args'.Perm args) (hd : (args.map (·.name)).Nodup) (h : call t s args u = .ok out)
    (h' : call t' s args' u' = .ok out') {i j : Nat} {a : Arg} (ho : out[i]? = some (.given j))
    (ha : args[j]? = some a) : ∃ j' : Nat, out'[i]? = some (.given j') ∧ args'[j']? = some a := by
  have wa : WellFormedArgs args := fun a ha _ => hn a ha
  have wa' : WellFormedArgs args' := fun a ha _ => hn a (hperm.mem_iff.1 ha)
  have hb' : Builds s args' := fun e c => hb e (by rw [c] at hperm; exact hperm.nil_eq.symm)
  obtain ⟨p, hp, hinj, hpn⟩ := named_argument_only_to_its_parameter wf wa hb h ho ha
    (hn a (List.mem_of_getElem? ha))
  obtain ⟨j', hj'⟩ := List.mem_iff_getElem?.1 (hperm.mem_iff.2 (List.mem_of_getElem? ha))
  refine ⟨j', ?_, hj'⟩
  apply named_argument_goes_to_its_parameter wf wa' hb' h' hp hinj hj' hpn.symm
  intro k b hk hkb hbn
  have hd' : (args'.map (·.name)).Nodup := ((hperm.map (·.name)).nodup_iff).2 hd
  have hlt : k < (args'.map (·.name)).length := by
    rw [List.length_map]; exact (List.getElem?_eq_some_iff.1 hkb).1
  have := (List.getElem?_inj (j := j') hlt hd').1 (by
    rw [List.getElem?_map, List.getElem?_map, hkb, hj']
    simp [hbn, hpn])
  omega

/-! ## Rest parameters -/

/-- C84: a call with positional arguments only to a function with a rest parameter: the parameters before it get one
argument each, in order, and it gets all the others. -/
theorem rest_parameter_collects {t : Types} {s : Sig} {args : List Arg} {numUsings : Nat} {out : List Slot}
    (hfn : s.isType = false) (hrest : restStart s < s.params.length) (hpos : ∀ a ∈ args, a.name = "")
    (henough : s.min ≤ args.length) (h : call t s args numUsings = .ok out) :
    out.length = s.params.length ∧
    (∀ i : Nat, i < restStart s → i < args.length → out[i]? = some (.given i)) ∧
    (restStart s < args.length →
      out[restStart s]? = some (.rest (((List.range args.length).drop (restStart s)).map Slot.given))) ∧
    ∀ (i : Nat) (p : Param), s.params[i]? = some p → (args.length ≤ i ∨ restStart s < i) →
      out[i]? = some (if p.dflt then .dflt else .implicit) ∧ (p.dflt = true ∨ p.impl = true) := by
  have hnames : collectNames args = [] := by
    unfold collectNames
    rw [if_neg]
    rw [List.any_eq_true]
    rintro ⟨a, ha, h0⟩
    simp [hpos a ha] at h0
  have hm : ∃ m, matchCall t s args numUsings = .ok m ∧ callerNode s args.length m = .ok out := by
    unfold call at h
    rcases hm : matchCall t s args numUsings with m | _ | _
    · rw [hm] at h; exact ⟨m, rfl, h⟩
    · rw [hm] at h; cases h
    · rw [hm] at h; cases h
  obtain ⟨m, hm, hc⟩ := hm
  obtain ⟨-, -, h3⟩ := matchCall_cases (t := t) (numUsings := numUsings) (args := args) (s := s)
    (fun e => by rw [hfn] at e; cases e) (by rw [hm]; simp)
  rcases h3 with ⟨-, e⟩ | ⟨hn, -⟩
  rotate_left
  · exact absurd hnames hn
  have h0 : s.min - args.length = 0 := by omega
  have hr : reorderByNumUsings s.params.length args.length (s.min - args.length) = none := by
    unfold reorderByNumUsings; rw [if_pos h0]
  rw [hm, hr, hfn] at e
  unfold matchArgs at e
  simp only [Bool.false_and, Bool.false_eq_true, if_false, and_false] at e
  have hn : Nat.max args.length s.min = args.length := Nat.max_eq_left henough
  rw [hn] at e
  unfold matchLoops at e
  have hus : m.reorder = none ∧ m.usings = [] := by
    rcases hml : matchLoop t s args none (List.range args.length) with us | _ | _
    · rw [hml] at e
      simp only at e
      have hempty : us = [] := by
        obtain ⟨g1, g2⟩ := matchLoop_spec t s args none _ _ List.nodup_range hml
        rw [List.eq_nil_iff_forall_not_mem]
        intro i hi
        obtain ⟨u, hu, huu⟩ := g2 i (g1 i hi)
        have hut := huu.2 hi
        subst hut
        unfold matchOne at hu
        have hil := List.mem_range.1 (g1 i hi)
        rcases hpp : s.params[if restStart s ≤ i then restStart s else i]? with _ | p
        · rw [hpp] at hu; cases hu
        · rw [hpp] at hu
          simp only [hil, if_true, List.getElem?_eq_getElem hil] at hu
          split at hu
          · cases hu
          · split at hu <;> cases hu
      rcases hrl : restLoop args none ((List.range args.length).drop (restStart s)) with x | _ | _
      · rw [hrl] at e; cases e; exact ⟨rfl, hempty⟩
      · rw [hrl] at e; cases e
      · rw [hrl] at e; cases e
    · rw [hml] at e; cases e
    · rw [hml] at e; cases e
  unfold callerNode at hc
  simp only [hus.1, hus.2, place, convert, hfn, Bool.false_and, Bool.false_eq_true, if_false] at hc
  obtain ⟨f1, f2⟩ := fill_spec _ _ _ (resize_length _ _) hc
  generalize hcells : gather (restStart s) ((List.range args.length).map Slot.given) = cells at hc f2
  have cl : cells.length = if restStart s < args.length then restStart s + 1 else args.length := by
    rw [← hcells]
    unfold gather
    simp only [List.length_map, List.length_range]
    split
    · rw [List.length_append, List.length_take, List.length_map, List.length_range]
      simp only [List.length_singleton]
      rw [Nat.min_eq_left (by omega)]
    · simp
  have c1 : ∀ i : Nat, i < restStart s → i < args.length → cells[i]? = some (.given i) := by
    intro i h1 h2
    rw [← hcells]
    unfold gather
    have hg : ((List.range args.length).map Slot.given)[i]? = some (.given i) := by
      rw [List.getElem?_map, List.getElem?_range h2]; rfl
    split
    · rw [List.getElem?_append_left (by
        rw [List.length_take, List.length_map, List.length_range]; exact Nat.lt_min.2 ⟨h1, h2⟩),
        List.getElem?_take_of_lt h1]
      exact hg
    · exact hg
  have c2 : restStart s < args.length →
      cells[restStart s]? = some (.rest (((List.range args.length).drop (restStart s)).map Slot.given)) := by
    intro h1
    rw [← hcells]
    unfold gather
    rw [if_pos (by simpa using h1)]
    rw [List.getElem?_append_right (by rw [List.length_take]; exact Nat.min_le_left _ _)]
    rw [List.length_take, List.length_map, List.length_range, Nat.min_eq_left (by omega), Nat.sub_self, List.map_drop]
    rfl
  refine ⟨f1, ?_, ?_, ?_⟩
  · intro i h1 h2
    have hp := List.getElem?_eq_getElem (l := s.params) (i := i) (by omega)
    obtain ⟨b, hb1, hb2⟩ := f2 i _ (.given i) hp (by
      rw [resize_get _ _ _ (by omega), if_pos (by rw [cl]; split <;> omega)]; exact c1 i h1 h2)
    rw [hb1]; cases hb2; rfl
  · intro h1
    have hp := List.getElem?_eq_getElem (l := s.params) (i := restStart s) hrest
    obtain ⟨b, hb1, hb2⟩ := f2 (restStart s) _ _ hp (by
      rw [resize_get _ _ _ hrest, if_pos (by rw [cl, if_pos h1]; omega)]; exact c2 h1)
    rw [hb1]; cases hb2; rfl
  · intro i p hp hi
    have hil := (List.getElem?_eq_some_iff.1 hp).1
    obtain ⟨b, hb1, hb2⟩ := f2 i p .empty hp (by
      rw [resize_get _ _ _ hil, if_neg (by rw [cl]; split <;> omega)])
    simp only [fillOne] at hb2
    rw [hb1]
    by_cases hd : p.dflt = true
    · rw [if_pos hd] at hb2 ⊢; cases hb2; exact ⟨rfl, .inl hd⟩
    · rw [if_neg hd] at hb2 ⊢
      by_cases hi' : p.impl = true
      · rw [if_pos hi'] at hb2; cases hb2; exact ⟨rfl, .inr hi'⟩
      · rw [if_neg hi'] at hb2; cases hb2

/-! ## Findings -/

/-- A required parameter. -/
def req (n : String) : Param := { name := n }
/-- A defaulted parameter. -/
def opt (n : String) : Param := { name := n, dflt := true }
/-- A required parameter that must be named. -/
def bang (n : String) : Param := { name := n, must := true }

/-- The signature of `fn f(ps)`. -/
def sigOf (ps : List Param) : Sig :=
  match declare ps [] with
  | .ok s => s
  | _ => { params := [], min := 0, max := 0 }

/-- C84 finding: a positional argument is silently dropped next to an optional one: with `fn f(a)`, the call
`f(x, a?: y)` is accepted, `a` gets `y` and `x` is not even evaluated, whatever the types. -/
theorem positional_argument_dropped (t : Types) (h : t.fits 0 1 = true) :
    call t (sigOf [req "a"]) [{}, { name := "a", opt := true }] 0 = .ok [.given 1] := by
  have e : sigOf [req "a"] = { params := [req "a"], min := 1, max := 1 } := by decide
  rw [e]
  simp [call, matchCall, collectNames, collectOptional, reorderByArgIDs, step, find, req, dropMisses, misses, ifNeeded,
    matchArgs, matchLoops, matchLoop, matchOne, restStart, restLoop, callerNode, place, stealLoop, convert, gather,
    resize, fill, fillOne, List.range, List.range.loop, h]

/-- C84 finding: giving a parameter twice is an error, but not when the second time is optional: `f(a: x, a?: y)` drops
`y`. -/
theorem repeated_argument_dropped (t : Types) (h : t.fits 0 0 = true) :
    call t (sigOf [req "a"]) [{ name := "a" }, { name := "a", opt := true }] 0 = .ok [.given 0] ∧
    call t (sigOf [req "a"]) [{ name := "a" }, { name := "a" }] 0 = .fail ∧
    call t (sigOf [req "a"]) [{ name := "a", opt := true }, { name := "a" }] 0 = .fail := by
  have e : sigOf [req "a"] = { params := [req "a"], min := 1, max := 1 } := by decide
  rw [e]
  refine ⟨?_, ?_, ?_⟩ <;>
  simp [call, matchCall, collectNames, collectOptional, reorderByArgIDs, step, find, req, dropMisses, misses, ifNeeded,
    matchArgs, matchLoops, matchLoop, matchOne, restStart, restLoop, callerNode, place, stealLoop, convert, gather,
    resize, fill, fillOne, List.range, List.range.loop, h]

/-- C84 finding: an optional argument nobody takes breaks the compiler when a `using` is in scope: with `fn f(a, b)`,
`f(zz?: x)` indexes past the end of the reordering. -/
theorem optional_argument_breaks_compiler (t : Types) (h : t.supplies 0 = true) :
    call t (sigOf [req "a", req "b"]) [{ name := "zz", opt := true }] 1 = .bug := by
  have e : sigOf [req "a", req "b"] = { params := [req "a", req "b"], min := 2, max := 2 } := by decide
  rw [e]
  simp [call, matchCall, collectNames, collectOptional, reorderByArgIDs, step, find, scan, req, dropMisses, misses,
    ifNeeded, matchArgs, matchLoops, matchLoop, matchOne, restStart, List.range, List.range.loop, h]

/-- C84 finding: `struct S { a = 0; b: T; }` and `S(x)` break the compiler: the arity check counts one argument as
enough, `x` goes to `a`, and `b` is left without a value. -/
theorem default_before_required_breaks_compiler (t : Types) (h : t.fits 0 0 = true) :
    call t (typeSig [opt "a", req "b"]) [{}] 0 = .bug := by
  simp [typeSig, call, matchCall, collectNames, collectOptional, reorderByNumUsings, req, opt,
    matchArgs, matchLoops, matchLoop, matchOne, restStart, restLoop, callerNode, place, convert, gather,
    resize, fill, fillOne, List.range, List.range.loop, h]

/-- C84 finding: `implicit b!` after a defaulted parameter throws off the place of the next `c!`: the required
parameter ends up after the defaulted one, and `f(x)` breaks the compiler; with two such implicits the parser itself
breaks. -/
theorem implicit_bang_misplaces_parameters (t : Types) (h : t.fits 0 0 = true) :
    parseArgsDecl [opt "a", { bang "b" with impl := true }, bang "c"] =
      .ok [opt "a", bang "c", { bang "b" with impl := true }] ∧
    call t (sigOf [opt "a", { bang "b" with impl := true }, bang "c"]) [{}] 0 = .bug ∧
    parseArgsDecl [opt "a", { bang "b" with impl := true }, { bang "d" with impl := true }, bang "c"] = .bug := by
  refine ⟨by decide, ?_, by decide⟩
  have e : sigOf [opt "a", { bang "b" with impl := true }, bang "c"] =
    { params := [opt "a", bang "c", { bang "b" with impl := true }], min := 1, max := 3 } := by decide
  rw [e]
  simp [call, matchCall, collectNames, collectOptional, reorderByNumUsings, bang, opt,
    matchArgs, matchLoops, matchLoop, matchOne, restStart, restLoop, callerNode, place, convert, gather,
    resize, fill, fillOne, List.range, List.range.loop, h]

/-- C84 finding: a parameter after a rest parameter is accepted in a declaration and breaks the compiler at the call. -/
theorem parameter_after_rest_breaks_compiler (t : Types) (h0 : t.fits 0 0 = true) (h1 : t.fits 1 1 = true) :
    call t (sigOf [{ req "r" with rest := true }, req "b"]) [{}, {}] 0 = .bug := by
  have e : sigOf [{ req "r" with rest := true }, req "b"] =
    { params := [{ req "r" with rest := true }, req "b"], min := 2, max := noMax, rest1b := 1 } := by decide
  rw [e]
  simp [call, matchCall, collectNames, collectOptional, reorderByNumUsings, req, noMax,
    matchArgs, matchLoops, matchLoop, matchOne, restStart, restLoop, callerNode, place, convert, gather,
    resize, fill, fillOne, List.range, List.range.loop, h0, h1]

/-- C84 finding: a rest parameter with a default breaks the compiler when a `using` supplies an earlier parameter: with
`fn f(a, b, r[]?)`, `f(x)` indexes at `-1`. -/
theorem defaulted_rest_breaks_compiler (t : Types) (h0 : t.supplies 0 = true) (h1 : t.fits 1 0 = true) :
    call t (sigOf [req "a", req "b", { opt "r" with rest := true }]) [{}] 1 = .bug := by
  have e : sigOf [req "a", req "b", { opt "r" with rest := true }] =
    { params := [req "a", req "b", { opt "r" with rest := true }], min := 2, max := noMax, rest1b := 3 } := by decide
  rw [e]
  simp [call, matchCall, collectNames, collectOptional, reorderByNumUsings, req, opt, noMax,
    matchArgs, matchLoops, matchLoop, matchOne, restStart, restLoop,
    List.range, List.range.loop, h0, h1]

/-! ## Concrete cases -/

/-- Everything fits; no `using` supplies anything. -/
def anyType : Types := ⟨fun _ _ => true, fun _ => false⟩

/-- `fn f(a, b!, c = 0, implicit d)` with an injected implicit. -/
def exDecl : List Param := [req "a", opt "c", bang "b", { req "d" with impl := true }]
def exInj : List Param := [{ name := "ctx", impl := true, inj := true }]

example : Declared exDecl exInj := by
  refine ⟨?_, ?_, ?_, ?_⟩ <;> simp [exDecl, exInj, req, opt, bang, noMax]

example : declare [req "a", { req "d" with impl := true }, opt "c", bang "b"] exInj =
    .ok { params := [req "a", bang "b", opt "c", { req "d" with impl := true }] ++ exInj, min := 2, max := 4 } := by
  decide

def exSig : Sig := { params := [req "a", bang "b", opt "c", { req "d" with impl := true }] ++ exInj, min := 2, max := 4 }

/-- `f(b: x, y)`: `a` gets `y`, `b` gets `x`, the others their defaults. -/
example : call anyType exSig [{ name := "b" }, {}] 0 = .ok [.given 1, .given 0, .dflt, .implicit, .implicit] := by
  simp [exSig, exInj, anyType, call, matchCall, collectNames, collectOptional, reorderByArgIDs, step, find, req, bang,
    opt, dropMisses, misses, ifNeeded, scan,
    matchArgs, matchLoops, matchLoop, matchOne, restStart, restLoop, callerNode, place, stealLoop, convert, gather,
    resize, fill, fillOne, List.range, List.range.loop]

/-- `f(x, y)` is refused: `b` must be named. -/
example : call anyType exSig [{}, {}] 0 = .fail := by
  simp [exSig, exInj, anyType, call, matchCall, collectNames, collectOptional, reorderByNumUsings, req, bang,
    matchArgs, matchLoops, matchLoop, matchOne, restStart, List.range, List.range.loop]

/-- The hypotheses of the theorems are met. -/
example : WellFormed exSig ∧ RequiredFirst exSig ∧ Builds exSig [{ name := "b" }, {}] := by
  refine ⟨⟨⟨exInj, by decide, by simp [exInj]⟩, ?_, by decide, by decide, by decide, by decide, by decide, ?_⟩,
    ⟨[req "a", bang "b"], [opt "c", { req "d" with impl := true }], by decide, by decide, by decide⟩, ?_⟩
  · decide
  · intro h; cases h
  · intro h; cases h

end Verif.CallArgs
