import Verif.BuildHash
/-!
# An incremental build gives what a build from scratch gives: C81
-/
namespace Verif.Build
open Verif
set_option linter.unusedSectionVars false

variable {U : Type} [DecidableEq U] {H : Hash U} {L : Lang} {Obj Exe : Type} {T : Tools Obj Exe}

/-! ## What is assumed -/

def Tree.isSys : Tree → Bool
  | .sys => true
  | .node _ _ => false

/-- The headers that are not the system's. -/
def own (ts : List Tree) : List Tree := ts.filter (fun t => !t.isSys)

/-- The object is determined by the options, the text of the unit and the trees of the headers it includes. -/
def Determined (L : Lang) (T : Tools Obj Exe) : Prop :=
  ∀ (gcc extra : Str) (u u' : TUnit) (fs fs' : Str → Option Str) (n n' : Nat) (ts ts' : List Tree),
    trees L fs n u.fname u.incs = some ts → trees L fs' n' u'.fname u'.incs = some ts' → u.src = u'.src → own ts = own ts' →
    T.cc gcc extra u fs = T.cc gcc extra u' fs'

/-- Size and time of a file tell whether it changed between hashing and the check after the compilation. -/
def World.Honest (w : World) : Prop := ∀ p, w.stat1 p = w.stat0 p → ∀ i, w.view i p = w.src p

/-- Nothing changes while the build runs. -/
def World.Quiet (w : World) : Prop := ∀ p, w.stat1 p = w.stat0 p ∧ ∀ i, w.view i p = w.src p

/-- Without a cache: all units are compiled with what is on the disk, and linked. -/
def fresh (T : Tools Obj Exe) (o : Opts) (fs : Str → Option Str) (units : List TUnit) : Option Exe :=
  (units.mapM fun u => T.cc o.gcc o.extra u fs).bind (T.ld o.link)

/-! ## Keys -/

theorem filter_own (ts : List Tree) : (hashTs H ts).filter (· ≠ H.zero) = (own ts).map (hashT H) := by
  induction ts with
  | nil => rfl
  | cons t ts ih =>
    rw [hashTs]
    unfold own at *
    have hz := hashT_zero H t
    cases t with
    | sys =>
      rw [List.filter_cons_of_neg (by simpa using hz.2 rfl), List.filter_cons_of_neg (by simp [Tree.isSys]), ih]
    | node x k =>
      rw [List.filter_cons_of_pos (by simp only [ne_eq, decide_eq_true_eq]; intro e; cases hz.1 e),
        List.filter_cons_of_pos (by simp [Tree.isSys]), ih, List.map_cons]

theorem keyOf_inj {g g' s s' : Str} {ts ts' : List Tree} (h : keyOf H g s (hashTs H ts) = keyOf H g' s' (hashTs H ts')) :
    g = g' ∧ s = s' ∧ own ts = own ts' := by
  have := H.inj _ _ h
  rw [List.cons.injEq, List.cons.injEq, List.cons.injEq] at this
  obtain ⟨e1, e2, e3, _⟩ := this
  have e4 := H.inj _ _ (Item.num.inj e2)
  have e5 := H.inj _ _ (Item.num.inj e3)
  rw [filter_own, filter_own] at e4
  have e6 := num_inj e4
  refine ⟨by simpa using e5, by simpa using e1, ?_⟩
  rw [← hashTs_map, ← hashTs_map] at e6
  exact hashTs_inj H _ _ e6

theorem keys_spec {src : Str → Option Str} {fuel : Nat} {g : Str} {f : TUnit → List Tree} : ∀ (units : List TUnit) (s : State U),
    (∀ u ∈ units, trees L src fuel u.fname u.incs = some (f u)) → Good H L src fuel s →
    ∃ s', keys H L src fuel g s units = some (s', units.map fun u => keyOf H g u.src (hashTs H (f u))) ∧ Step H L src fuel s s' ∧
      ∀ u ∈ units, ∀ i ∈ u.incs, ∀ q, L.target u.fname i = some q → Covered L src s'.inv q := by
  intro units
  induction units with
  | nil => intro s _ _; exact ⟨s, rfl, .refl s, fun u hu => by cases hu⟩
  | cons u t ih =>
    intro s hu hg
    obtain ⟨s1, e1, st1, c1⟩ := visits_spec (H := H) (follow H L src fuel) (fun q t s hq hg => follow_spec fuel fuel q t s (Nat.le_refl _) hq hg)
      u.fname u.incs (f u) s (hu u List.mem_cons_self) hg
    obtain ⟨s2, e2, st2, c2⟩ := ih s1 (fun x hx => hu x (List.mem_cons_of_mem _ hx)) (hg.step st1)
    refine ⟨s2, ?_, st1.trans st2, ?_⟩
    · rw [keys, e1]
      dsimp only
      rw [e2, List.map_cons]
    · intro x hx i hi q hq
      rcases List.mem_cons.1 hx with rfl | hx
      · exact (c1 i hi q hq).mono st2.2
      · exact c2 x hx i hi q hq

/-! ## The cache -/

/-- `x` is the right object for the key `k`. -/
def Right (H : Hash U) (L : Lang) (T : Tools Obj Exe) (extra : Str) (k : U) (x : Obj) : Prop :=
  ∃ (g : Str) (u : TUnit) (fs : Str → Option Str) (n : Nat) (ts : List Tree),
    trees L fs n u.fname u.incs = some ts ∧ k = keyOf H g u.src (hashTs H ts) ∧ T.cc g extra u fs = some x

structure CacheOk (H : Hash U) (L : Lang) (T : Tools Obj Exe) (extra : Str) (c : Cache U Obj Exe) : Prop where
  obj : ∀ k x, c.obj k = some x → Right H L T extra k x
  exe : ∀ F e, c.exe F = some e → ∃ (link : Str) (ks : List U) (f : U → Option Obj), (∀ k x, f k = some x → Right H L T extra k x) ∧
    F = H.of (ks.map .num ++ [.text link]) ∧ (ks.mapM f).bind (T.ld link) = some e

theorem right_cc (hD : Determined L T) {extra g : Str} {u : TUnit} {fs : Str → Option Str} {n : Nat} {ts : List Tree} {x : Obj}
    (h : Right H L T extra (keyOf H g u.src (hashTs H ts)) x) (ht : trees L fs n u.fname u.incs = some ts) : T.cc g extra u fs = some x := by
  obtain ⟨g', u', fs', n', ts', h1, h2, h3⟩ := h
  obtain ⟨rfl, e, e'⟩ := keyOf_inj h2
  rw [← h3]
  exact hD g extra u u' fs fs' n n' ts ts' ht h1 e e'

theorem mapM_through {K : TUnit → U} {f : U → Option Obj} {g : TUnit → Option Obj} (units : List TUnit)
    (h : ∀ u ∈ units, ∀ x, f (K u) = some x → g u = some x) : ∀ xs, (units.map K).mapM f = some xs → units.mapM g = some xs := by
  induction units with
  | nil => intro xs h; exact h
  | cons u t ih =>
    intro xs hx
    rw [List.map_cons, List.mapM_cons] at hx
    simp only [Option.bind_eq_bind, Option.bind_eq_some_iff, Option.pure_def, Option.some.injEq] at hx
    obtain ⟨x, h1, ys, h2, rfl⟩ := hx
    rw [List.mapM_cons, h u List.mem_cons_self x h1]
    simp only [Option.bind_eq_bind, Option.bind_some]
    rw [ih (fun v hv => h v (List.mem_cons_of_mem _ hv)) ys h2]
    rfl

theorem mapM_same {K : TUnit → U} {f : U → Option Obj} {g : TUnit → Option Obj} (units : List TUnit)
    (h : ∀ u ∈ units, f (K u) = g u) : (units.map K).mapM f = units.mapM g := by
  induction units with
  | nil => rfl
  | cons u t ih =>
    rw [List.map_cons, List.mapM_cons, List.mapM_cons, h u List.mem_cons_self, ih (fun v hv => h v (List.mem_cons_of_mem _ hv))]

theorem mapM_none {g : TUnit → Option Obj} (units : List TUnit) {u : TUnit} (hu : u ∈ units) (h : g u = none) : units.mapM g = none := by
  induction units with
  | nil => cases hu
  | cons v t ih =>
    rw [List.mapM_cons]
    rcases List.mem_cons.1 hu with rfl | hu
    · rw [h]; rfl
    · rw [ih hu]
      cases g v <;> rfl

/-- What the compilation gives: objects of the units, for those that the cache lacks. -/
theorem compileAll_spec {o : Opts} {w : World} {c : Cache U Obj Exe} {K : TUnit → U} (units : List TUnit) (i : Nat) :
    match compileAll T o w c i (units.zip (units.map K)) with
    | none => ∃ u ∈ units, ∃ j, T.cc o.gcc o.extra u (w.view j) = none
    | some objs => objs.length = units.length ∧ ∀ ux ∈ units.zip objs,
        (ux.2 = none ∧ (c.obj (K ux.1)).isSome) ∨ ∃ j x, ux.2 = some x ∧ T.cc o.gcc o.extra ux.1 (w.view j) = some x := by
  induction units generalizing i with
  | nil => exact ⟨rfl, fun ux h => by cases h⟩
  | cons u t ih =>
    rw [List.map_cons, List.zip_cons_cons, compileAll]
    have ih := ih (i + 1)
    by_cases hc : (c.obj (K u)).isSome ∧ o.nocache = false
    · rw [if_pos hc]
      cases hr : compileAll T o w c (i + 1) (t.zip (t.map K)) with
      | none =>
        rw [hr] at ih
        obtain ⟨v, hv, h⟩ := ih
        exact ⟨v, List.mem_cons_of_mem _ hv, h⟩
      | some xs =>
        rw [hr] at ih
        refine ⟨by simp [ih.1], ?_⟩
        intro ux hux
        rcases List.mem_cons.1 hux with rfl | hux
        · exact .inl ⟨rfl, hc.1⟩
        · exact ih.2 ux hux
    · rw [if_neg hc]
      cases hx : T.cc o.gcc o.extra u (w.view i) with
      | none => exact ⟨u, List.mem_cons_self, i, hx⟩
      | some x =>
        cases hr : compileAll T o w c (i + 1) (t.zip (t.map K)) with
        | none =>
          rw [hr] at ih
          obtain ⟨v, hv, h⟩ := ih
          exact ⟨v, List.mem_cons_of_mem _ hv, h⟩
        | some xs =>
          rw [hr] at ih
          refine ⟨by simp [ih.1], ?_⟩
          intro ux hux
          rcases List.mem_cons.1 hux with rfl | hux
          · exact .inr ⟨i, x, rfl, hx⟩
          · exact ih.2 ux hux

theorem persist_spec {K : TUnit → U} (R : U → Obj → Prop) (units : List TUnit) : ∀ (c : U → Option Obj) (objs : List (Option Obj)), objs.length = units.length →
    (∀ k x, c k = some x → R k x) → (∀ ux ∈ units.zip objs, ∀ x, ux.2 = some x → R (K ux.1) x) →
    (∀ k x, persist c (units.map K) objs k = some x → R k x) ∧
    (∀ k, (c k).isSome → (persist c (units.map K) objs k).isSome) ∧
    (∀ ux ∈ units.zip objs, (ux.2 = none → (c (K ux.1)).isSome) → (persist c (units.map K) objs (K ux.1)).isSome) := by
  induction units with
  | nil =>
    intro c objs _ h _
    cases objs <;> exact ⟨h, fun k h => h, fun ux hux => by cases hux⟩
  | cons u t ih =>
    intro c objs hl h1 h2
    cases objs with
    | nil => cases hl
    | cons x xs =>
      have hl' : xs.length = t.length := by simpa using hl
      rw [List.map_cons]
      cases x with
      | none =>
        rw [persist]
        obtain ⟨a, b, d⟩ := ih c xs hl' h1 (fun ux hux => h2 ux (List.mem_cons_of_mem _ hux))
        refine ⟨a, b, ?_⟩
        intro ux hux hn
        rcases List.mem_cons.1 hux with rfl | hux
        · exact b _ (hn rfl)
        · exact d ux hux hn
      | some x =>
        rw [persist]
        have hx := h2 (u, some x) List.mem_cons_self x rfl
        obtain ⟨a, b, d⟩ := ih (fun q => if q = K u then some x else c q) xs hl' (by
          intro k y hk
          split at hk
          · rename_i e; cases hk; rw [e]; exact hx
          · exact h1 k y hk) (fun ux hux => h2 ux (List.mem_cons_of_mem _ hux))
        have hstep : ∀ k, (c k).isSome → ((fun q => if q = K u then some x else c q) k).isSome := by
          intro k hk
          dsimp only
          split
          · rfl
          · exact hk
        refine ⟨a, fun k hk => b k (hstep k hk), ?_⟩
        intro ux hux hn
        rcases List.mem_cons.1 hux with rfl | hux
        · exact b _ (by simp)
        · exact d ux hux (fun e => hstep _ (hn e))

theorem any_some {objs : List (Option Obj)} (h : (objs.any (·.isSome)) = false) : ∀ x, some x ∉ objs := by
  intro x hx
  have := List.any_eq_false.1 h (some x) hx
  simp at this

/-! ## The theorems -/

/-- C81, one build, with a cache that previous builds have left. -/
theorem build_correct (hD : Determined L T) (fuel : Nat) (o : Opts) (bin : Bool) (w : World) (hw : w.Honest) (units : List TUnit)
    (hexp : ∀ u ∈ units, (trees L w.src fuel u.fname u.incs).isSome) (c : Cache U Obj Exe) (hc : CacheOk H L T o.extra c) :
    CacheOk H L T o.extra (build H L T fuel o bin w units c).1 ∧
    (∀ e, (build H L T fuel o bin w units c).2 = some e → fresh T o w.src units = some e) ∧
    (w.Quiet → (build H L T fuel o bin w units c).2 = fresh T o w.src units) := by
  let f : TUnit → List Tree := fun u => (trees L w.src fuel u.fname u.incs).getD []
  have hf : ∀ u ∈ units, trees L w.src fuel u.fname u.incs = some (f u) := by
    intro u hu
    obtain ⟨ts, hts⟩ := Option.isSome_iff_exists.1 (hexp u hu)
    show _ = some ((trees L w.src fuel u.fname u.incs).getD [])
    rw [hts]; rfl
  let K : TUnit → U := fun u => keyOf H o.gcc u.src (hashTs H (f u))
  obtain ⟨s, hks, _, hcov⟩ := keys_spec (H := H) (g := o.gcc) units ⟨fun _ => H.zero, []⟩ hf (fun q t _ h => absurd rfl h)
  have hright : ∀ u ∈ units, ∀ x, Right H L T o.extra (K u) x → T.cc o.gcc o.extra u w.src = some x :=
    fun u hu x h => right_cc hD h (hf u hu)
  unfold build
  rw [hks]
  show CacheOk H L T o.extra (buildTarget H T o bin w s.inv units (units.map K) c).1 ∧
    (∀ e, (buildTarget H T o bin w s.inv units (units.map K) c).2 = some e → _) ∧ (_ → (buildTarget H T o bin w s.inv units (units.map K) c).2 = _)
  -- taking the executable out of the cache
  have hdone : ∀ (c : Cache U Obj Exe) (F : U), CacheOk H L T o.extra c →
      CacheOk H L T o.extra (if bin then { c with exe := fun q => if q = F then none else c.exe q } else c) := by
    intro c F hc
    by_cases hb : bin = true
    · rw [if_pos hb]
      refine ⟨hc.obj, ?_⟩
      intro F' e he
      dsimp only at he
      split at he
      · cases he
      · exact hc.exe F' e he
    · rw [if_neg hb]; exact hc
  unfold buildTarget
  dsimp only
  cases hexe : (if o.nocache = true then none else c.exe (H.of ((units.map K).map Item.num ++ [Item.text o.link]))) with
  | some e =>
    dsimp only
    have hce : c.exe (H.of ((units.map K).map Item.num ++ [Item.text o.link])) = some e := by
      split at hexe
      · cases hexe
      · exact hexe
    have hfresh : fresh T o w.src units = some e := by
      obtain ⟨link, ks, g, hg, hF, he⟩ := hc.exe _ e hce
      have := H.inj _ _ hF
      obtain ⟨e1, e2⟩ := List.append_inj' this rfl
      have e3 := num_inj e1
      have e4 : o.link = link := by simpa using e2
      rw [← e3, ← e4] at he
      obtain ⟨xs, h1, h2⟩ := Option.bind_eq_some_iff.1 he
      unfold fresh
      rw [mapM_through units (fun u hu x hx => hright u hu x (hg _ _ hx)) xs h1]
      exact h2
    exact ⟨hdone c _ hc, fun e' he' => by cases he'; exact hfresh, fun _ => hfresh.symm⟩
  | none =>
    dsimp only
    have hca := compileAll_spec (T := T) (o := o) (w := w) (c := c) (K := K) units 0
    cases hcomp : compileAll T o w c 0 (units.zip (units.map K)) with
    | none =>
      rw [hcomp] at hca
      refine ⟨hc, fun e he => (by cases he), fun hq => ?_⟩
      obtain ⟨u, hu, j, hj⟩ := hca
      have : w.view j = w.src := funext fun p => (hq p).2 j
      rw [this] at hj
      unfold fresh
      rw [mapM_none units hu hj]; rfl
    | some objs =>
      rw [hcomp] at hca
      obtain ⟨hlen, hobj⟩ := hca
      dsimp only
      by_cases hbad : (objs.any (·.isSome)) = true ∧ ¬ (∀ p ∈ s.inv, w.stat1 p = w.stat0 p)
      · rw [if_pos hbad]
        exact ⟨hc, fun e he => (by cases he), fun hq => absurd (fun p _ => (hq p).1) hbad.2⟩
      · rw [if_neg hbad]
        have hnew : ∀ ux ∈ units.zip objs, ∀ x, ux.2 = some x → Right H L T o.extra (K ux.1) x := by
          intro ux hux x hx
          have hu : ux.1 ∈ units := (List.of_mem_zip hux).1
          have hin : some x ∈ objs := hx ▸ (List.of_mem_zip hux).2
          have hany : (objs.any (·.isSome)) = true := List.any_eq_true.2 ⟨some x, hin, rfl⟩
          have hstat : ∀ p ∈ s.inv, w.stat1 p = w.stat0 p := Classical.byContradiction fun hn => hbad ⟨hany, hn⟩
          rcases hobj ux hux with ⟨hn, _⟩ | ⟨j, y, hy, hcc⟩
          · rw [hx] at hn; cases hn
          · rw [hx] at hy; cases hy
            refine ⟨o.gcc, ux.1, w.view j, fuel, f ux.1, ?_, rfl, hcc⟩
            rw [covered_trees (fs := w.src)]
            · exact hf ux.1 hu
            · intro i hi q hq
              exact covered_tree (fun p hp => hw p (hstat p hp) j) (hcov ux.1 hu i hi q hq) fuel
        obtain ⟨p1, p2, p3⟩ := persist_spec (K := K) (Right H L T o.extra) units c.obj objs hlen hc.obj hnew
        have hsome : ∀ u ∈ units, (persist c.obj (units.map K) objs (K u)).isSome := by
          intro u hu
          obtain ⟨i, hi, rfl⟩ := List.getElem_of_mem hu
          have hz : (units[i], objs[i]'(by omega)) ∈ units.zip objs := by
            have : i < (units.zip objs).length := by rw [List.length_zip]; omega
            have e : (units.zip objs)[i] = (units[i], objs[i]'(by omega)) := List.getElem_zip
            rw [← e]; exact List.getElem_mem this
          refine p3 _ hz ?_
          intro hn
          rcases hobj _ hz with ⟨_, h⟩ | ⟨j, x, hx, _⟩
          · exact h
          · rw [hn] at hx; cases hx
        have hcc : ∀ u ∈ units, persist c.obj (units.map K) objs (K u) = T.cc o.gcc o.extra u w.src := by
          intro u hu
          obtain ⟨x, hx⟩ := Option.isSome_iff_exists.1 (hsome u hu)
          rw [hx, hright u hu x (p1 _ _ hx)]
        have hfr : ((units.map K).mapM (persist c.obj (units.map K) objs)).bind (T.ld o.link) = fresh T o w.src units := by
          unfold fresh
          rw [mapM_same units hcc]
        have hok : CacheOk H L T o.extra { c with obj := persist c.obj (units.map K) objs } := ⟨p1, hc.exe⟩
        cases hl : ((units.map K).mapM (persist c.obj (units.map K) objs)).bind (T.ld o.link) with
        | none =>
          dsimp only
          refine ⟨hok, fun e he => (by cases he), fun _ => ?_⟩
          rw [← hfr, hl]
        | some e =>
          dsimp only
          refine ⟨hdone _ _ ?_, ?_, fun _ => ?_⟩
          · refine ⟨p1, ?_⟩
            intro F e' he
            dsimp only at he
            split at he
            · rename_i hF
              cases he
              exact ⟨o.link, units.map K, _, p1, hF, hl⟩
            · exact hc.exe F e' he
          · intro e' he'
            cases he'
            rw [← hfr, hl]
          · rw [← hfr, hl]

/-- A build: options, whether the executable is moved away, the disk, the units. -/
structure Run where
  opts : Opts
  bin : Bool
  world : World
  units : List TUnit

/-- Builds one after the other in one workspace; the outcome of each. -/
def runs (H : Hash U) (L : Lang) (T : Tools Obj Exe) (fuel : Nat) : Cache U Obj Exe → List Run → List (Option Exe)
  | _, [] => []
  | c, r :: t => (build H L T fuel r.opts r.bin r.world r.units c).2 :: runs H L T fuel (build H L T fuel r.opts r.bin r.world r.units c).1 t

/-- C81.  Any number of builds, of any programs, with any changes of any files in between and meanwhile: a build that succeeds gives
the executable that compiling everything anew gives; if nothing changes while it runs, it also fails only if that does. -/
theorem builds_fresh_partial (hD : Determined L T) (fuel : Nat) (extra : Str) (rs : List Run)
    (h : ∀ r ∈ rs, r.opts.extra = extra ∧ r.world.Honest ∧
      ((∀ u ∈ r.units, (trees L r.world.src fuel u.fname u.incs).isSome) ∨ keys H L r.world.src fuel r.opts.gcc ⟨fun _ => H.zero, []⟩ r.units = none)) :
    ∀ (i : Nat) (r : Run), rs[i]? = some r →
      (∀ e, (runs H L T fuel ⟨fun _ => none, fun _ => none⟩ rs)[i]? = some (some e) → fresh T r.opts r.world.src r.units = some e) ∧
      (r.world.Quiet → (∀ u ∈ r.units, (trees L r.world.src fuel u.fname u.incs).isSome) →
        (runs H L T fuel ⟨fun _ => none, fun _ => none⟩ rs)[i]? = some (fresh T r.opts r.world.src r.units)) := by
  have key : ∀ (rs : List Run) (c : Cache U Obj Exe), CacheOk H L T extra c →
      (∀ r ∈ rs, r.opts.extra = extra ∧ r.world.Honest ∧
        ((∀ u ∈ r.units, (trees L r.world.src fuel u.fname u.incs).isSome) ∨ keys H L r.world.src fuel r.opts.gcc ⟨fun _ => H.zero, []⟩ r.units = none)) →
      ∀ (i : Nat) (r : Run), rs[i]? = some r →
      (∀ e, (runs H L T fuel c rs)[i]? = some (some e) → fresh T r.opts r.world.src r.units = some e) ∧
      (r.world.Quiet → (∀ u ∈ r.units, (trees L r.world.src fuel u.fname u.incs).isSome) →
        (runs H L T fuel c rs)[i]? = some (fresh T r.opts r.world.src r.units)) := by
    intro rs
    induction rs with
    | nil => intro c _ _ i r hr; cases i <;> cases hr
    | cons r0 t ih =>
      intro c hc h i r hr
      obtain ⟨h1, h2, h3⟩ := h r0 List.mem_cons_self
      have hfail : keys H L r0.world.src fuel r0.opts.gcc ⟨fun _ => H.zero, []⟩ r0.units = none →
          build H L T fuel r0.opts r0.bin r0.world r0.units c = (c, none) := by
        intro hk; unfold build; rw [hk]
      have hc' : CacheOk H L T extra (build H L T fuel r0.opts r0.bin r0.world r0.units c).1 := by
        rcases h3 with h3 | h3
        · have := (build_correct hD fuel r0.opts r0.bin r0.world h2 r0.units h3 c (h1 ▸ hc)).1
          rw [h1] at this; exact this
        · rw [hfail h3]; exact hc
      cases i with
      | zero =>
        have e : r0 = r := by simpa using hr
        subst e
        rw [runs, List.getElem?_cons_zero]
        constructor
        · intro e he
          rcases h3 with h3 | h3
          · exact (build_correct hD fuel r0.opts r0.bin r0.world h2 r0.units h3 c (h1 ▸ hc)).2.1 e (Option.some.inj he)
          · rw [hfail h3] at he; cases he
        · intro hq h4
          rw [(build_correct hD fuel r0.opts r0.bin r0.world h2 r0.units h4 c (h1 ▸ hc)).2.2 hq]
      | succ i =>
        rw [runs, List.getElem?_cons_succ]
        exact ih _ hc' (fun r hr => h r (List.mem_cons_of_mem _ hr)) i r (by simpa using hr)
  exact key rs _ ⟨fun k x h => (by cases h), fun F e h => (by cases h)⟩ h

end Verif.Build
