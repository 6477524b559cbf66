import Verif.CanonAssign
/-! # C33: what assignability guarantees; names of user types (C60) -/
namespace Verif.Canon
open Verif Verif.Helpers

theorem hasLabel_iff (T : Target.Packed) (a : Args) (ls : Labels) :
    hasLabel T a ls = true ↔ ∃ T' ag, (T', ag) ∈ ls.toList ∧ labelOk T a T' ag = true := by
  induction ls using Labels.rec (motive_1 := fun _ => True) (motive_2 := fun _ => True) with
  | last T' ag _ =>
    rw [hasLabel_last]
    simp only [Labels.toList, List.mem_singleton, Prod.mk.injEq]
    constructor
    · intro h; exact ⟨T', ag, ⟨rfl, rfl⟩, h⟩
    · rintro ⟨_, _, ⟨rfl, rfl⟩, h⟩; exact h
  | more T' ag rest _ ih =>
    rw [hasLabel_more, Bool.or_eq_true, ih]
    simp only [Labels.toList, List.mem_cons, Prod.mk.injEq]
    constructor
    · rintro (h | ⟨x, y, hm, h⟩)
      · exact ⟨T', ag, Or.inl ⟨rfl, rfl⟩, h⟩
      · exact ⟨x, y, Or.inr hm, h⟩
    · rintro ⟨_, _, ⟨rfl, rfl⟩ | hm, h⟩
      · exact Or.inl h
      · exact Or.inr ⟨_, _, hm, h⟩
  | _ => trivial

theorem all_iff (f : Target.Packed → Args → Bool) (ls : Labels) :
    ls.all f = true ↔ ∀ T a, (T, a) ∈ ls.toList → f T a = true := by
  induction ls using Labels.rec (motive_1 := fun _ => True) (motive_2 := fun _ => True) with
  | last T' ag _ =>
    simp only [Labels.toList, List.mem_singleton, Prod.mk.injEq, Labels.all]
    constructor
    · rintro h _ _ ⟨rfl, rfl⟩; exact h
    · intro h; exact h _ _ ⟨rfl, rfl⟩
  | more T' ag rest _ ih =>
    simp only [Labels.toList, List.mem_cons, Prod.mk.injEq, Labels.all, Bool.and_eq_true, ih]
    constructor
    · rintro ⟨h1, h2⟩ _ _ (⟨rfl, rfl⟩ | hm)
      · exact h1
      · exact h2 _ _ hm
    · intro h; exact ⟨h _ _ (Or.inl ⟨rfl, rfl⟩), fun _ _ hm => h _ _ (Or.inr hm)⟩
  | _ => trivial

theorem accepts_refl (n : Nat) : ∀ (t : Ty) (_ : t.sz ≤ n) (p : Str), accepts p t p t = true := by
  induction n with
  | zero => intro t h; cases t <;> simp [Ty.sz] at h
  | succ n ih =>
    intro t hn p
    cases t with
    | name s => simp only [accepts, beq_self_eq_true]
    | arr q t => simp only [accepts, beq_self_eq_true]
    | gen b ls =>
      simp only [accepts, beq_self_eq_true, Bool.true_and]
      rw [all_iff]
      intro T a hm
      rw [hasLabel_iff]
      refine ⟨T, a, hm, ?_⟩
      unfold labelOk
      have s1 := sz_labels _ _ _ hm
      simp only [Ty.sz] at hn
      have hs : someArg a a = true := by
        cases a with
        | one q t =>
          simp only [Args.sz] at s1
          simp only [someArg]
          exact ih t (by omega) _
        | cons q t rest =>
          simp only [Args.sz] at s1
          simp only [someArg, Bool.or_eq_true]
          exact Or.inl (ih t (by omega) _)
      rw [hs]
      cases a.deep <;> simp

/-- **C33** Every type accepts itself. -/
theorem assignable_refl (t : Ty) (h : t.Ok) : isCanonAssignable t.render t.render = .ok true := by
  rw [assignable_eq_spec t t h h]
  have hk : ∀ (p : Str) (x : Ty), accepts p x p x = true := fun p x => accepts_refl _ x (Nat.le_refl _) p
  cases t <;> simp only [acceptsTop, hk]

/-- **C33** A plain host accepts exactly the plain type of that name and the labelled types based on it; arrays accept
only arrays; a labelled host accepts no plain type. -/
theorem plain_host (s : Str) (hs : Plain s) (g : Ty) (hg : g.Ok) :
    isCanonAssignable s g.render = .ok true ↔ g = .name s ∨ ∃ ls, g = .gen s ls := by
  have := assignable_eq_spec (.name s) g hs hg
  rw [name_render] at this
  rw [this]
  cases g with
  | name s' =>
    simp only [acceptsTop, accepts, Ty.render, List.nil_append, Except.ok.injEq, beq_iff_eq]
    constructor
    · rintro rfl; exact Or.inl rfl
    · rintro (h | ⟨_, h⟩) <;> cases h; rfl
  | arr q t =>
    simp only [acceptsTop]
    constructor
    · intro h; cases h
    · rintro (h | ⟨_, h⟩) <;> cases h
  | gen b ls =>
    simp only [acceptsTop, accepts, Ty.render, List.nil_append, Except.ok.injEq, beq_iff_eq]
    constructor
    · rintro rfl; exact Or.inr ⟨_, rfl⟩
    · rintro (h | ⟨_, h⟩) <;> cases h; rfl

theorem labelled_host_refuses_plain (b : Str) (ls : Labels) (h : (Ty.gen b ls).Ok) (s : Str) (hs : Plain s) :
    isCanonAssignable (Ty.gen b ls).render s = .ok false := by
  have := assignable_eq_spec (.gen b ls) (.name s) h hs
  rw [name_render] at this
  rw [this]
  simp only [acceptsTop, accepts, Ty.render, List.nil_append]
  congr 1
  apply beq_false_of_ne
  rintro rfl
  exact paren_plain hs (by simp [str])

theorem arrays_with_arrays (h g : Ty) (hh : h.Ok) (hg : g.Ok) (ha : isCanonAssignable h.render g.render = .ok true) :
    (∃ q x, h = .arr q x) ↔ (∃ q x, g = .arr q x) := by
  rw [assignable_eq_spec h g hh hg] at ha
  have hb : ∀ {s : Str} {q x}, Plain s → (Ty.arr q x).render ≠ s := by
    rintro s q x hs rfl
    exact hs.2.1 (by simp only [Ty.render]; rfl)
  have no : ∀ {t : Ty}, (∃ s, t = .name s) ∨ (∃ b ls, t = .gen b ls) → ¬ ∃ q x, t = .arr q x := by
    rintro t (⟨s, rfl⟩ | ⟨b, ls, rfl⟩) ⟨q, x, e⟩ <;> cases e
  cases h with
  | arr q x =>
    refine ⟨fun _ => ?_, fun _ => ⟨_, _, rfl⟩⟩
    cases g with
    | arr q' x' => exact ⟨_, _, rfl⟩
    | name s =>
      simp only [acceptsTop, accepts, name_render, List.nil_append, Except.ok.injEq, beq_iff_eq] at ha
      exact absurd ha (hb hg)
    | gen b ls =>
      simp only [acceptsTop, accepts, List.nil_append, Except.ok.injEq, beq_iff_eq] at ha
      exact absurd ha (hb hg.1)
  | name s =>
    refine ⟨fun h => absurd h (no (Or.inl ⟨_, rfl⟩)), ?_⟩
    rintro ⟨q, x, rfl⟩
    simp [acceptsTop] at ha
  | gen b ls =>
    refine ⟨fun h => absurd h (no (Or.inr ⟨_, _, rfl⟩)), ?_⟩
    rintro ⟨q, x, rfl⟩
    simp [acceptsTop] at ha

/-- **C33** A guest with all of the host's labels (and more) on the same base is accepted. -/
theorem more_labels_accepted (b : Str) (ls ls' : Labels) (h : (Ty.gen b ls).Ok) (h' : (Ty.gen b ls').Ok)
    (hsub : ∀ T a, (T, a) ∈ ls.toList → (T, a) ∈ ls'.toList) :
    isCanonAssignable (Ty.gen b ls).render (Ty.gen b ls').render = .ok true := by
  rw [assignable_eq_spec _ _ h h']
  simp only [acceptsTop, accepts, beq_self_eq_true, Bool.true_and]
  congr 1
  rw [all_iff]
  intro T a hm
  rw [hasLabel_iff]
  refine ⟨T, a, hsub T a hm, ?_⟩
  have := accepts_refl _ (.gen b (.last T a)) (Nat.le_refl _) []
  simp only [accepts, beq_self_eq_true, Bool.true_and, Labels.all] at this
  rwa [hasLabel_last] at this

/-- **C33** An accepted labelled guest was made by every template that made the host. -/
theorem guest_has_every_template (b b' : Str) (ls ls' : Labels) (h : (Ty.gen b ls).Ok) (h' : (Ty.gen b' ls').Ok)
    (ha : isCanonAssignable (Ty.gen b ls).render (Ty.gen b' ls').render = .ok true) :
    b.head? = b'.head? ∧ ∀ T ∈ ls.toList.map (·.1), T ∈ ls'.toList.map (·.1) := by
  rw [assignable_eq_spec _ _ h h'] at ha
  simp only [acceptsTop, accepts, List.nil_append, Except.ok.injEq, Bool.and_eq_true, beq_iff_eq] at ha
  refine ⟨ha.1, ?_⟩
  intro T hT
  rw [List.mem_map] at hT
  obtain ⟨⟨T', a⟩, hm, rfl⟩ := hT
  obtain ⟨T'', ag, hm', hl⟩ := (hasLabel_iff _ _ _).1 ((all_iff _ _).1 ha.2 _ _ hm)
  unfold labelOk at hl
  simp only [Bool.and_eq_true, beq_iff_eq] at hl
  rw [List.mem_map]
  exact ⟨(T'', ag), hm', hl.1⟩

/-! ### every argument must fit - true only of templates with one argument -/

mutual
/-- every template mentioned has one argument -/
def Ty.Single : Ty → Prop
  | .name _ => True
  | .arr _ t => t.Single
  | .gen _ ls => ls.Single
def Args.Single : Args → Prop
  | .one _ t => t.Single
  | .cons _ _ _ => False
def Labels.Single : Labels → Prop
  | .last _ a => a.Single
  | .more _ a rest => a.Single ∧ rest.Single
end

mutual
/-- What should hold: same leading byte, and for each label of the host a label of the guest by the same template, with as
many arguments, **each** of which fits. -/
def fits (p : Str) (h : Ty) (p' : Str) : Ty → Prop
  | .gen b' ls' =>
    match h with
    | .gen b ls => (p ++ b).head? = (p' ++ b').head? ∧ ∀ T a, (T, a) ∈ ls.toList → labelFits T a ls'
    | h => p ++ h.render = p' ++ b'
  | g => p ++ h.render = p' ++ g.render
def everyArg (ah : Args) : Args → Prop
  | .one q' t' => match ah with
    | .one q t => fits (enc q) t (enc q') t'
    | .cons .. => False
  | .cons q' t' rest' => match ah with
    | .one .. => False
    | .cons q t rest => fits (enc q) t (enc q') t' ∧ everyArg rest rest'
def labelFits (T : Target.Packed) (ah : Args) : Labels → Prop
  | .last T' ag => T' = T ∧ everyArg ah ag
  | .more T' ag rest => (T' = T ∧ everyArg ah ag) ∨ labelFits T ah rest
end

/-- the same at the top, where arrays go by their items -/
def fitsTop (h g : Ty) : Prop :=
  match h, g with
  | .arr q h, .arr q' g => fits (enc q) h (enc q') g
  | _, .arr _ _ => False
  | h, g => fits [] h [] g

theorem labelFits_of (T : Target.Packed) (a : Args) (ls : Labels) (T' : Target.Packed) (ag : Args) (hm : (T', ag) ∈ ls.toList)
    (h : T' = T ∧ everyArg a ag) : labelFits T a ls := by
  induction ls using Labels.rec (motive_1 := fun _ => True) (motive_2 := fun _ => True) with
  | last T2 ag2 _ =>
    simp only [Labels.toList, List.mem_singleton, Prod.mk.injEq] at hm
    simp only [labelFits]
    rw [← hm.1, ← hm.2]; exact h
  | more T2 ag2 rest _ ih =>
    simp only [Labels.toList, List.mem_cons, Prod.mk.injEq] at hm
    simp only [labelFits]
    rcases hm with hm | hm
    · left; rw [← hm.1, ← hm.2]; exact h
    · right; exact ih hm
  | _ => trivial

theorem single_mem (ls : Labels) (h : ls.Single) (T : Target.Packed) (a : Args) (hm : (T, a) ∈ ls.toList) : a.Single := by
  induction ls using Labels.rec (motive_1 := fun _ => True) (motive_2 := fun _ => True) with
  | last T2 ag2 _ =>
    simp only [Labels.toList, List.mem_singleton, Prod.mk.injEq] at hm
    rw [hm.2]; exact h
  | more T2 ag2 rest _ ih =>
    simp only [Labels.toList, List.mem_cons, Prod.mk.injEq] at hm
    rcases hm with hm | hm
    · rw [hm.2]; exact h.1
    · exact ih h.2 hm
  | _ => trivial

/-- one argument is never spelled like two -/
theorem one_ne_cons (q : BitVec 32) (t : Ty) (h : t.Ok) (q' : BitVec 32) (t' : Ty) (rest : Args) (h' : t'.Ok) :
    enc q ++ t.render ≠ (Args.cons q' t' rest).render := by
  intro e
  have e1 := scan_end (walk_item q t h) []
  have e2 := scan_stop (walk_item q' t' h') ⟨by decide, by decide⟩ [] rest.render
  have e3 : (Args.cons q' t' rest).render = enc q' ++ t'.render ++ [ch ':'] ++ rest.render := by simp only [Args.render]; rfl
  simp only [List.nil_append] at e1 e2
  rw [e, e3, e2] at e1
  simp at e1

theorem fits_of_accepts (n : Nat) : ∀ (g : Ty) (_ : g.sz ≤ n) (_ : g.Ok) (h : Ty) (_ : h.Ok) (_ : h.Single) (p p' : Str),
    accepts p h p' g = true → fits p h p' g := by
  induction n with
  | zero => intro g hn; cases g <;> simp [Ty.sz] at hn
  | succ n ih =>
    intro g hn hg h hh hsing p p' ha
    cases g with
    | name s => simp only [accepts, beq_iff_eq] at ha; simp only [fits]; exact ha
    | arr q t => simp only [accepts, beq_iff_eq] at ha; simp only [fits]; exact ha
    | gen b' ls' =>
      cases h with
      | name s => simp only [accepts, beq_iff_eq] at ha; simp only [fits]; exact ha
      | arr q t => simp only [accepts, beq_iff_eq] at ha; simp only [fits]; exact ha
      | gen b ls =>
        simp only [accepts, Bool.and_eq_true, beq_iff_eq] at ha
        simp only [fits]
        refine ⟨ha.1, fun T a hm => ?_⟩
        obtain ⟨T', ag, hm', hl⟩ := (hasLabel_iff _ _ _).1 ((all_iff _ _).1 ha.2 _ _ hm)
        have hag := (ok_labels _ hg.2 _ _ hm').2
        have hao := (ok_labels _ hh.2 _ _ hm).2
        have hs := single_mem _ hsing _ _ hm
        refine labelFits_of T a ls' T' ag hm' ?_
        unfold labelOk at hl
        simp only [Bool.and_eq_true, beq_iff_eq] at hl
        refine ⟨hl.1, ?_⟩
        have hsz := sz_labels _ _ _ hm'
        simp only [Ty.sz] at hn
        replace hl := hl.2
        cases a with
        | cons q t rest => exact hs.elim
        | one q t =>
          split at hl
          · rename_i hd
            simp only [beq_iff_eq] at hl
            cases ag with
            | cons q' t' rest' =>
              simp only [Args.render] at hl
              refine absurd ?_ (one_ne_cons q t hao q' t' rest' hag.1)
              simpa only [Args.render] using hl
            | one q' t' =>
              simp only [Args.render] at hl
              simp only [everyArg]
              cases t' with
              | name s => simp only [fits]; exact hl
              | arr q2 t2 => simp only [fits]; exact hl
              | gen b2 ls2 => simp [Args.deep, Ty.deep] at hd
          · simp only [Bool.and_eq_true] at hl
            replace hl := hl.2
            cases ag with
            | cons q' t' rest' => simp [someArg] at hl
            | one q' t' =>
              simp only [someArg] at hl
              simp only [everyArg]
              simp only [Args.sz] at hsz
              exact ih t' (by omega) hag t hao hs _ _ hl

/-- **C33**, in part.  What is accepted fits in every argument, if the host's templates have one argument each.
Missing: templates with several arguments, where it is false - see `one_matching_argument_is_enough`. -/
theorem accepted_fits_partial (h g : Ty) (hh : h.Ok) (hg : g.Ok) (hs : h.Single)
    (ha : isCanonAssignable h.render g.render = .ok true) : fitsTop h g := by
  rw [assignable_eq_spec h g hh hg] at ha
  simp only [Except.ok.injEq] at ha
  have key := fun g hg h hh hs p p' => fits_of_accepts g.sz g (Nat.le_refl _) hg h hh hs p p'
  cases h <;> cases g <;> simp only [acceptsTop, fitsTop, Bool.false_eq_true] at ha ⊢
  all_goals first
    | exact key _ hg _ hh hs _ _ ha
    | exact key _ (by simpa only [Ty.Ok] using hg) _ (by simpa only [Ty.Ok] using hh) (by simpa only [Ty.Single] using hs) _ _ ha

/-! ### witnesses: what does not hold -/

/-- **C33 is false** for templates with several arguments: one matching argument is enough.  `S(T, i32, L)` accepts
`S(T, f64, L)` once some argument carries a label. -/
theorem one_matching_argument_is_enough :
    isCanonAssignable (str "S(01Ai32:AL(02B))") (str "S(01Af64:AL(02B))") = .ok true ∧
    isCanonAssignable (str "S(01Ai32:AL)") (str "S(01Af64:AL)") = .ok false := by decide +kernel

/-- Only the first byte of the base is compared: two types defined by the same template from the same arguments are taken
for each other if their names begin alike. -/
theorem bases_confused : isCanonAssignable (str "e8A0(01A)") (str "e32B1(01A)") = .ok true := by decide +kernel

/-- ... so acceptance is not transitive. -/
theorem acceptance_not_transitive :
    isCanonAssignable (str "e8A0") (str "e8A0(01A)") = .ok true ∧
    isCanonAssignable (str "e8A0(01A)") (str "e32B1(01A)") = .ok true ∧
    isCanonAssignable (str "e8A0") (str "e32B1(01A)") = .ok false := by decide +kernel

/-- An argument without a label never meets one with: `List(A)` refuses `List(A(T))`, although `A` accepts `A(T)`. -/
theorem mixed_depth_refused :
    isCanonAssignable (str "A") (str "A(02B)") = .ok true ∧
    isCanonAssignable (str "L(01A)") (str "L(01A(02B))") = .ok false := by decide +kernel

/-- `trimPattern` of an array of labelled items cuts the array in half. -/
theorem trim_breaks_arrays : trimPattern (str "[0S(01A)]") = str "[0S" := by decide +kernel

/-! ### super- and intersection types -/

/-- **C33** The supertype of two types, when there is one, is one of them and accepts both. -/
theorem super_accepts_both (a b : Ty) (ha : a.Ok) (hb : b.Ok) (r : Str) (h : trySuper a.render b.render = .ok r) (hr : r ≠ []) :
    (r = a.render ∨ r = b.render) ∧ isCanonAssignable r a.render = .ok true ∧ isCanonAssignable r b.render = .ok true := by
  unfold trySuper at h
  split at h
  rename_i a' b' hab
  split at hab <;> cases hab
  · rw [assignable_eq_spec b a hb ha] at h
    simp only at h
    cases hc : acceptsTop b a with
    | false => rw [hc] at h; cases h; exact absurd rfl hr
    | true =>
      rw [hc] at h; cases h
      rw [if_pos rfl]
      exact ⟨Or.inr rfl, by rw [assignable_eq_spec b a hb ha, hc], assignable_refl b hb⟩
  · rw [assignable_eq_spec a b ha hb] at h
    simp only at h
    cases hc : acceptsTop a b with
    | false => rw [hc] at h; cases h; exact absurd rfl hr
    | true =>
      rw [hc] at h; cases h
      rw [if_pos rfl]
      exact ⟨Or.inl rfl, assignable_refl a ha, by rw [assignable_eq_spec a b ha hb, hc]⟩

/-- If either accepts the other, as its name is the shorter one, the supertype is found. -/
theorem super_found (a b : Ty) (hl : a.render.length < b.render.length)
    (h : isCanonAssignable a.render b.render = .ok true) :
    trySuper a.render b.render = .ok a.render ∧ trySuper b.render a.render = .ok a.render := by
  unfold trySuper
  constructor
  · rw [if_neg (by omega)]
    simp only [h, if_true]
  · rw [if_pos (by omega)]
    simp only [h, if_true]

/-- **C33 is false** of intersections: host and guest are the wrong way round, so a type and a specialisation of it have
no intersection although the specialisation can be used as both; and the result, when there is one, may be refused by one
of the two. -/
theorem intersection_wrong :
    isCanonAssignable (str "S") (str "S(01A)") = .ok true ∧ tryIntersect (str "S") (str "S(01A)") = .ok [] ∧
    tryIntersect (str "S(01Avery_long:AL(02B))") (str "S(01Ax:AL(02B)|03C)") = .ok (str "S(01Avery_long:AL(02B))") ∧
    isCanonAssignable (str "S(01Ax:AL(02B)|03C)") (str "S(01Avery_long:AL(02B))") = .ok false := by decide +kernel

/-! non-vacuity: `S(01 0T(02 1i32))` and an array of it are well-formed, and accept themselves -/

theorem good_one (g : BitVec 32) (hg : 0 < g.toInt ∧ g.toInt < 2 ^ 20) :
    ∃ t, Target.mk 0 g 0 = .ok t ∧ GoodT t := by
  have hf : Target.Fits 0 g 0 := ⟨by decide, by decide, hg.1, hg.2, by decide, by decide⟩
  obtain ⟨t, e, h1, h2, h3, _⟩ := Target.target_reads_back 0 g 0 hf
  exact ⟨t, e, ⟨0, g, 0, hf, e⟩, h3⟩

theorem plain_S : Plain (str "S") := by
  refine ⟨by decide, by decide, ?_⟩
  decide

example : ∃ t : Ty, t.Ok ∧ t.Single ∧ t.deep = true ∧ isCanonAssignable t.render t.render = .ok true := by
  obtain ⟨T, _, hT⟩ := good_one 1 (by decide)
  obtain ⟨U, _, hU⟩ := good_one 2 (by decide)
  have hok : (Ty.arr 5 (.gen (str "S") (.more T (.one 1 (.gen (str "S") (.last U (.one 7 (.name (str "S")))))) (.last U (.one 1 (.name (str "S"))))))).Ok :=
    ⟨plain_S, hT, ⟨plain_S, hU, plain_S⟩, hU, plain_S⟩
  exact ⟨_, hok, ⟨trivial, trivial⟩, rfl, assignable_refl _ hok⟩

/-! ### C60: names of user types -/

/-- a primitive type's name: a letter and digits -/
def IsPrim (b : Str) : Prop :=
  ∃ c ds, b = c :: ds ∧ c ∈ [ch 'i', ch 'u', ch 'f', ch 'b', ch 'c'] ∧ ∀ d ∈ ds, 48 ≤ d.toNat ∧ d.toNat ≤ 57

theorem sigil_high (h : BitVec 64) : 128 ≤ (sigil h).toNat := by
  unfold sigil
  dsimp only
  generalize (h ^^^ h >>> 32) = a
  generalize (a ^^^ a >>> 16) = b
  generalize (b ^^^ b >>> 8) = x
  have : ((x ||| 128#64).setWidth 8).getLsbD 7 = true := by
    simp only [BitVec.getLsbD_setWidth, BitVec.getLsbD_or]
    have : (128#64).getLsbD 7 = true := by decide
    rw [this]; simp
  have h2 := BitVec.getLsbD_eq_getElem (x := (x ||| 128#64).setWidth 8) (i := 7) (by omega)
  generalize (x ||| 128#64).setWidth 8 = w at *
  have h3 : w.toNat.testBit 7 = true := by rw [← this]; rfl
  have := Nat.ge_two_pow_of_testBit h3
  simpa using this

theorem lt_zero_of_high {c : Byte} (h : 128 ≤ c.toNat) : Byte.lt c (ch '0') = true := by
  unfold Byte.lt
  rw [BitVec.slt_iff_toInt_lt]
  have h1 : (ch '0').toInt = 48 := by decide
  rw [h1, BitVec.toInt_eq_toNat_cond]
  have := c.isLt
  split <;> omega

theorem digit_stays {c : Byte} (h : 48 ≤ c.toNat ∧ c.toNat ≤ 57) : (Byte.lt c (ch '0') || Byte.lt (ch '9') c) = false := by
  unfold Byte.lt
  rw [Bool.or_eq_false_iff]
  have h1 : (ch '0').toInt = 48 := by decide
  have h2 : (ch '9').toInt = 57 := by decide
  have h3 : c.toInt = c.toNat := by rw [BitVec.toInt_eq_toNat_cond, if_pos (by omega)]
  constructor
  · rw [← Bool.not_eq_true, BitVec.slt_iff_toInt_lt]; omega
  · rw [← Bool.not_eq_true, BitVec.slt_iff_toInt_lt]; omega

theorem digitsEnd_eq (pre ds rest : Str) (x : Byte) (hd : ∀ d ∈ ds, 48 ≤ d.toNat ∧ d.toNat ≤ 57) (hx : 128 ≤ x.toNat) :
    digitsEnd (pre ++ ds ++ x :: rest) pre.length = pre.length + ds.length := by
  induction ds generalizing pre with
  | nil =>
    rw [digitsEnd, dif_pos (by simp)]
    have : (pre ++ [] ++ x :: rest)[pre.length]'(by simp) = x := by simp
    rw [this, lt_zero_of_high hx]
    simp
  | cons d ds ih =>
    rw [digitsEnd, dif_pos (by simp)]
    have : (pre ++ d :: ds ++ x :: rest)[pre.length]'(by simp) = d := by simp
    rw [this, digit_stays (hd d (List.mem_cons_self ..))]
    have := ih (pre ++ [d]) (fun y hy => hd y (List.mem_cons_of_mem _ hy))
    have e : pre ++ [d] ++ ds ++ x :: rest = pre ++ d :: ds ++ x :: rest := by simp
    rw [e, List.length_append, List.length_singleton] at this
    simp only [Bool.false_eq_true, if_false, this, List.length_cons]
    omega

/-- **C60** The name made for a user type - enum, flags, or any other; labelled or not; based on a primitive or not -
gives back the module and index it was made from. -/
theorem user_type_reads_back (kind : Kind) (basePrim : Str) (m i : BitVec 32) (specPat : Str) (hash : BitVec 64)
    (hb : basePrim = [] ∨ IsPrim basePrim) (hs : specPat = [] ∨ specPat.head? = some (ch '('))
    (hm : 0 ≤ m.toInt) (hi : 0 ≤ i.toInt) :
    ∃ canon, createUserTypeCanon kind basePrim m i specPat hash = .ok canon ∧ parseUserTypeCanon canon = .ok (m, i) := by
  have hmi : ((0#32).sle m && (0#32).sle i) = true := by
    rw [Bool.and_eq_true, BitVec.sle_iff_toInt_le, BitVec.sle_iff_toInt_le]
    exact ⟨hm, hi⟩
  have tail : ∀ pre : Str, (do
      let (modid, offset) ← parseVarint (pre ++ enc m ++ enc (i + 1#32) ++ specPat) pre.length
      let (globid, offset) ← parseVarint (pre ++ enc m ++ enc (i + 1#32) ++ specPat) offset
      if offset = (pre ++ enc m ++ enc (i + 1#32) ++ specPat).length ∨ (pre ++ enc m ++ enc (i + 1#32) ++ specPat)[offset]? = some (ch '(')
        then (.ok (modid, globid - 1#32) : Except Err (BitVec 32 × BitVec 32)) else .error .thrown) = .ok (m, i) := by
    intro pre
    have r1 := varint_roundtrip pre (enc (i + 1#32) ++ specPat) m
    have r2 := varint_roundtrip (pre ++ enc m) specPat (i + 1#32)
    simp only [appendVarint_eq] at r1 r2
    rw [← List.append_assoc] at r1
    rw [r1]
    dsimp only [bind, Except.bind]
    rw [r2]
    dsimp only
    have e : i + 1#32 - 1#32 = i := BitVec.add_sub_cancel i 1#32
    rw [e, if_pos]
    rcases hs with rfl | hs
    · left; simp
    · right
      rw [List.getElem?_append_right (Nat.le_refl _), Nat.sub_self]
      cases specPat with
      | nil => cases hs
      | cons c s => simpa using hs
  rcases hb with rfl | ⟨c, ds, rfl, hc, hd⟩
  · refine ⟨[sigil hash] ++ enc m ++ enc (i + 1#32) ++ specPat, ?_, ?_⟩
    · unfold createUserTypeCanon
      simp only [hmi, if_true, appendVarint_eq, List.nil_append]
    · unfold parseUserTypeCanon
      simp only [List.cons_append, List.head?_cons]
      have : ¬ (sigil hash).toNat < 128 := by have := sigil_high hash; omega
      rw [if_neg this]
      have := tail [sigil hash]
      simpa [bind, Except.bind] using this
  · have hce : c ≠ ch 'e' ∧ c ≠ ch 'm' := by
      simp only [List.mem_cons, List.not_mem_nil, or_false] at hc
      rcases hc with rfl | rfl | rfl | rfl | rfl <;> decide
    obtain ⟨c', hc', hok⟩ : ∃ c', c' = (if kind = .enum then ch 'e' else if kind = .flags then ch 'm' else c) ∧
        c' ∈ [ch 'i', ch 'u', ch 'f', ch 'b', ch 'c', ch 'e', ch 'm'] := by
      refine ⟨_, rfl, ?_⟩
      split
      · simp
      · split
        · simp
        · simp only [List.mem_cons, List.not_mem_nil, or_false] at hc ⊢
          rcases hc with h | h | h | h | h <;> simp [h]
    have hlow : c'.toNat < 128 := by
      have hall : ∀ x ∈ [ch 'i', ch 'u', ch 'f', ch 'b', ch 'c', ch 'e', ch 'm'], x.toNat < 128 := by decide
      exact hall _ hok
    refine ⟨c' :: ds ++ [sigil hash] ++ enc m ++ enc (i + 1#32) ++ specPat, ?_, ?_⟩
    · unfold createUserTypeCanon
      simp only [hmi, if_true, appendVarint_eq, List.cons_append]
      rw [if_neg (by rintro (h | h); exact hce.1 h; exact hce.2 h), hc']
    · unfold parseUserTypeCanon basePrimPrefixLen
      simp only [List.cons_append, List.head?_cons]
      rw [if_pos hlow, if_pos hok]
      have hde := digitsEnd_eq [c'] ds (enc m ++ enc (i + 1#32) ++ specPat) (sigil hash) hd (sigil_high hash)
      have := tail (c' :: ds ++ [sigil hash])
      simp only [List.cons_append, List.append_assoc, List.length_cons, List.length_nil, List.nil_append, List.length_append] at hde this ⊢
      rw [hde]
      simp only [Except.map, bind, Except.bind] at this ⊢
      have e : 0 + 1 + ds.length + 1 = ds.length + (0 + 1) + 1 := by omega
      rw [e]
      exact this

/-- **C60** so different user types have different names. -/
theorem user_types_distinct (k k' : Kind) (b b' : Str) (m i m' i' : BitVec 32) (sp sp' : Str) (h h' : BitVec 64)
    (hb : b = [] ∨ IsPrim b) (hb' : b' = [] ∨ IsPrim b') (hs : sp = [] ∨ sp.head? = some (ch '(')) (hs' : sp' = [] ∨ sp'.head? = some (ch '('))
    (hm : 0 ≤ m.toInt ∧ 0 ≤ i.toInt) (hm' : 0 ≤ m'.toInt ∧ 0 ≤ i'.toInt)
    (e : createUserTypeCanon k b m i sp h = createUserTypeCanon k' b' m' i' sp' h') : m = m' ∧ i = i' := by
  obtain ⟨c, e1, e2⟩ := user_type_reads_back k b m i sp h hb hs hm.1 hm.2
  obtain ⟨c', e1', e2'⟩ := user_type_reads_back k' b' m' i' sp' h' hb' hs' hm'.1 hm'.2
  rw [e1, e1'] at e
  cases e
  rw [e2] at e2'
  cases e2'
  exact ⟨rfl, rfl⟩

example : ∃ c, createUserTypeCanon .enum (str "u8") 3 1000 (str "(01A)") 77 = .ok c ∧ parseUserTypeCanon c = .ok (3, 1000) :=
  user_type_reads_back .enum (str "u8") 3 1000 (str "(01A)") 77
    (Or.inr ⟨ch 'u', str "8", rfl, by decide, by decide⟩) (Or.inr rfl) (by decide) (by decide)

end Verif.Canon
