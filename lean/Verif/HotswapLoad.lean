import Verif.HotswapProps
/-! # Replacing functions while the program runs: loading, and the files -/
namespace Verif.Hotswap

theorem rename_files {fs fs' : Files} {a b : Str} (h : rename fs a b = some fs') (hab : a ≠ b) :
    fs' b = fs a ∧ fs' a = none ∧ ∀ p, p ≠ a → p ≠ b → fs' p = fs p := by
  unfold rename at h
  cases e : fs a with
  | none => rw [e] at h; cases h
  | some f =>
    rw [e] at h
    cases h
    refine ⟨by simp, by simp [hab], ?_⟩
    intro p h1 h2
    simp [h1, h2]

theorem rename_back {fs fs' : Files} {a b : Str} (h : rename fs a b = some fs') (hab : a ≠ b) (free : fs b = none) :
    rename fs' b a = some fs := by
  obtain ⟨h1, h2, h3⟩ := rename_files h hab
  have hb : ∃ f, fs a = some f := by
    unfold rename at h
    cases e : fs a with
    | none => rw [e] at h; cases h
    | some f => exact ⟨f, rfl⟩
  obtain ⟨f, hf⟩ := hb
  unfold rename
  rw [h1, hf]
  simp only [Option.some.injEq]
  funext p
  by_cases hpa : p = a
  · rw [if_pos hpa, hpa, hf]
  · rw [if_neg hpa]
    by_cases hpb : p = b
    · rw [if_pos hpb, hpb, free]
    · rw [if_neg hpb, h3 p hpa hpb]

theorem longer (p suffix : Str) (h : suffix ≠ []) : p ≠ p ++ suffix := by
  intro e
  have := congrArg List.length e
  rw [List.length_append] at this
  have := List.length_pos_iff.2 h
  omega

/-- Loading leaves the files as they were, if nobody has the temporary name and renaming back is not refused. -/
theorem files_kept (y : Sys) (fs : Files) (ld : Loader) (hs : y.suffix ≠ []) (hb : y.denyBack = false)
    (free : ∀ p, (resolve y ld).abs_path = some p → fs (p ++ y.suffix) = none) : (tryLoad y fs ld).2 = fs := by
  have key : (openNew y fs (resolve y ld)).2 = fs := by
    unfold openNew
    cases e : (resolve y ld).abs_path with
    | none => rfl
    | some p =>
      dsimp only
      cases er : (if y.deny then none else rename fs p (p ++ y.suffix)) with
      | none => rfl
      | some fs' =>
        dsimp only
        rw [hb]
        have : rename fs p (p ++ y.suffix) = some fs' := by
          cases hd : y.deny with
          | true => rw [hd] at er; cases er
          | false => rw [hd] at er; exact er
        rw [rename_back this (longer p y.suffix hs) (free p e)]
        rfl
  unfold tryLoad
  cases e : (openNew y fs (resolve y ld)).1 <;> exact key

/-- **The library is gone meanwhile.** While it is being opened there is no file under its own name: if the program is killed here,
or renaming back is refused, it stays under the temporary one. -/
theorem away_partial (y : Sys) (fs fs' : Files) (p : Str) (hs : y.suffix ≠ []) (h : rename fs p (p ++ y.suffix) = some fs') :
    fs' p = none ∧ fs' (p ++ y.suffix) = fs p ∧
    ∀ ld : Loader, ld.abs_path = some p → y.deny = false → y.denyBack = true → (tryLoad y fs ld).2 = fs' := by
  obtain ⟨h1, h2, -⟩ := rename_files h (longer p y.suffix hs)
  refine ⟨h2, h1, ?_⟩
  intro ld hp hd hb
  have er : resolve y ld = ld := by unfold resolve; rw [if_neg (by rw [hp]; simp)]
  have : (openNew y fs ld).2 = fs' := by
    unfold openNew
    rw [hp]
    dsimp only
    rw [hd, if_neg (by decide), h, hb]
    rfl
  unfold tryLoad
  rw [er]
  cases e : (openNew y fs ld).1 <;> exact this

/-- **A file under the temporary name is lost.** (The first number is always the same, `rand()` without a seed.) -/
theorem clobbers_partial (y : Sys) (fs : Files) (ld : Loader) (p : Str) (f g : File) (hs : y.suffix ≠ []) (hp : ld.abs_path = some p)
    (hd : y.deny = false) (hb : y.denyBack = false) (hf : fs p = some f) (_hg : fs (p ++ y.suffix) = some g) :
    (tryLoad y fs ld).2 (p ++ y.suffix) = none := by
  have er : resolve y ld = ld := by unfold resolve; rw [if_neg (by rw [hp]; simp)]
  obtain ⟨fs', h⟩ : ∃ fs', rename fs p (p ++ y.suffix) = some fs' := by unfold rename; rw [hf]; exact ⟨_, rfl⟩
  obtain ⟨h1, h2, -⟩ := rename_files h (longer p y.suffix hs)
  obtain ⟨fs'', h'⟩ : ∃ fs'', rename fs' (p ++ y.suffix) p = some fs'' := by unfold rename; rw [h1, hf]; exact ⟨_, rfl⟩
  obtain ⟨-, h4, -⟩ := rename_files h' (Ne.symm (longer p y.suffix hs))
  have : (openNew y fs ld).2 = fs'' := by
    unfold openNew
    rw [hp]
    dsimp only
    rw [hd, if_neg (by decide), h, hb]
    dsimp only
    rw [h']
    rfl
  unfold tryLoad
  rw [er]
  cases e : (openNew y fs ld).1 <;> (dsimp only; rw [this]; exact h4)

theorem doReload_one (ys : Nat → Sys) (s : St) (ld : Loader) (hl : s.libs = [ld]) :
    (doReload ys s).slots = (match (tryLoad (ys 0) s.files ld).1.2, (tryLoad (ys 0) s.files ld).1.1.handle with
      | true, some h => (s.items.foldl (tryItem (ys 0) h) (s.slots, (tryLoad (ys 0) s.files ld).1.1.dladdr_symbol)).1
      | _, _ => s.slots) ∧
    (doReload ys s).files = (tryLoad (ys 0) s.files ld).2 ∧
    (∃ d, (doReload ys s).libs = [{ (tryLoad (ys 0) s.files ld).1.1 with dladdr_symbol := d }]) ∧ (doReload ys s).reloading = true ∧
    (doReload ys s).items = s.items := by
  unfold doReload
  rw [hl]
  simp only [List.zipIdx_cons, List.zipIdx_nil, List.map_cons, List.map_nil, reloadLibs]
  refine ⟨?_, by first | rfl | trivial, ⟨_, by first | rfl | trivial⟩, by simp, by first | rfl | trivial⟩
  cases (tryLoad (ys 0) s.files ld).1.2 <;> cases (tryLoad (ys 0) s.files ld).1.1.handle <;> rfl

/-- **A failed reload changes nothing**: no slot, and the library open before is still the one. -/
theorem failed_reload (ys : Nat → Sys) (s : St) (ld : Loader) (hl : s.libs = [ld])
    (fail : ∀ fs q, (ys 0).dlopen fs q = none) :
    (doReload ys s).slots = s.slots ∧ ∃ ld', (doReload ys s).libs = [ld'] ∧ ld'.handle = ld.handle ∧ ld'.filename = ld.filename := by
  have hn : (openNew (ys 0) s.files (resolve (ys 0) ld)).1 = none := by
    have plain : ∀ ld, openPlain (ys 0) s.files ld = none := by
      intro ld
      unfold openPlain
      rw [fail]
      dsimp only
      split
      · rfl
      · split
        · rfl
        · split
          · cases exePath _ _ with
            | none => rfl
            | some q => exact fail _ q
          · rfl
    unfold openNew
    cases (resolve (ys 0) ld).abs_path with
    | none => exact plain _
    | some p =>
      dsimp only
      cases (if (ys 0).deny then none else rename s.files p (p ++ (ys 0).suffix)) with
      | none => exact plain _
      | some fs' => exact fail _ _
  have ht : (tryLoad (ys 0) s.files ld).1 = (resolve (ys 0) ld, false) := by unfold tryLoad; rw [hn]
  obtain ⟨h1, -, ⟨d, h3⟩, -⟩ := doReload_one ys s ld hl
  rw [ht] at h1 h3
  refine ⟨by rw [h1], _, h3, ?_, ?_⟩
  · show (resolve (ys 0) ld).handle = ld.handle
    unfold resolve; split
    · split <;> rfl
    · rfl
  · show (resolve (ys 0) ld).filename = ld.filename
    unfold resolve; split
    · split <;> rfl
    · rfl

/-- **A reload brings the newest version.** If the path of the library is known and it may be renamed, what is loaded is the file that
is there now, and then every function announced is replaced by that version's, or left if that version has none. (`version`: which
file a library was loaded from; the system loads the file there is when the name is new.) -/
theorem newest (version : Handle → File) (ys : Nat → Sys) (s : St) (ld : Loader) (p : Str) (f : File) (hl : s.libs = [ld])
    (hp : ld.abs_path = some p) (hs : (ys 0).suffix ≠ []) (hd : (ys 0).deny = false) (hf : s.files p = some f)
    (faithful : ∀ fs q h, (ys 0).dlopen fs q = some h → fs q = some (version h))
    (opens : ∀ fs q, fs q ≠ none → (ys 0).dlopen fs q ≠ none)
    (hnd : (s.items.map Item.slot).Nodup) (hlt : ∀ i ∈ s.items, i.slot < s.slots.length) :
    ∃ h ld', (doReload ys s).libs = [ld'] ∧ ld'.handle = some h ∧ version h = f ∧
      ∀ i ∈ s.items, (doReload ys s).slots[i.slot]? = (((ys 0).dlsym h i.symbol).map some).getD s.slots[i.slot]? := by
  have er : resolve (ys 0) ld = ld := by unfold resolve; rw [if_neg (by rw [hp]; simp)]
  obtain ⟨fs', hr⟩ : ∃ fs', rename s.files p (p ++ (ys 0).suffix) = some fs' := by unfold rename; rw [hf]; exact ⟨_, rfl⟩
  obtain ⟨h1, -, -⟩ := rename_files hr (longer p _ hs)
  obtain ⟨h, hh⟩ : ∃ h, (ys 0).dlopen fs' (p ++ (ys 0).suffix) = some h :=
    Option.ne_none_iff_exists'.1 (opens fs' _ (by rw [h1, hf]; simp))
  have ho : (openNew (ys 0) s.files ld).1 = some h := by
    unfold openNew
    rw [hp]
    dsimp only
    rw [hd, if_neg (by decide), hr]
    exact hh
  have ht : (tryLoad (ys 0) s.files ld).1 = ({ ld with handle_old := ld.handle, handle := some h, dladdr_symbol := none }, true) := by
    unfold tryLoad; rw [er, ho]
  obtain ⟨e1, -, ⟨d, e3⟩, -⟩ := doReload_one ys s ld hl
  rw [ht] at e1 e3
  refine ⟨h, _, e3, rfl, ?_, ?_⟩
  · have := faithful _ _ _ hh
    rw [h1, hf] at this
    exact (Option.some.inj this).symm
  · intro i hi
    rw [e1]
    exact fold_found (ys 0) h s.items (s.slots, none) hnd hlt i hi

/-- there is always exactly one library, of the name given at the start -/
theorem one_library (name : Str) (files : Files) (evs : List Ev) :
    ∃ ld, (run (start name files) evs).libs = [ld] ∧ ld.filename = name := by
  have reload : ∀ (ys : Nat → Sys) (s : St), (∃ ld, s.libs = [ld] ∧ ld.filename = name) →
      ∃ ld, (doReload ys s).libs = [ld] ∧ ld.filename = name := by
    rintro ys s ⟨ld, hl, hn⟩
    obtain ⟨-, -, ⟨d, h3⟩, -⟩ := doReload_one ys s ld hl
    refine ⟨_, h3, ?_⟩
    show (tryLoad (ys 0) s.files ld).1.1.filename = name
    have : (resolve (ys 0) ld).filename = name := by
      rw [← hn]; unfold resolve; split
      · split <;> rfl
      · rfl
    unfold tryLoad
    cases (openNew (ys 0) s.files (resolve (ys 0) ld)).1 <;> exact this
  have step1 : ∀ (s : St) (e : Ev), (∃ ld, s.libs = [ld] ∧ ld.filename = name) → ∃ ld, (step s e).libs = [ld] ∧ ld.filename = name := by
    intro s e h
    cases e <;> simp only [step]
    case init => split; unfold init; split <;> exact h; exact h
    case here => split <;> exact h
    case go ys =>
      unfold go
      split
      · exact h
      · split <;> exact h
      · exact h
      · exact reload ys s h
      · exact h
    case signal ys =>
      have e : ∀ t : St, (callBack t).libs = t.libs := by intro t; unfold callBack; cases t.cb <;> rfl
      unfold onSignal
      rw [e]
      by_cases hm : s.manual
      · rw [if_pos hm]; exact h
      · rw [if_neg hm]; exact reload ys s h
    all_goals exact h
  have : ∀ (evs : List Ev) (s : St), (∃ ld, s.libs = [ld] ∧ ld.filename = name) → ∃ ld, (run s evs).libs = [ld] ∧ ld.filename = name := by
    intro evs
    induction evs with
    | nil => intro s h; exact h
    | cons e evs ih => intro s h; exact ih _ (step1 s e h)
  exact this evs _ ⟨_, rfl, rfl⟩

/-- `reloading` is never taken back -/
theorem reloading_stays (s : St) (e : Ev) (h : s.reloading = true) :
    (step s e).reloading = true ∧ (step s e).items = s.items ∧ s.slots.length ≤ (step s e).slots.length ∧
    ∀ k, (∀ i ∈ s.items, i.slot ≠ k) → k < s.slots.length → (step s e).slots[k]? = s.slots[k]? := by
  have reload : ∀ ys, (doReload ys s).reloading = true ∧ (doReload ys s).items = s.items ∧ s.slots.length ≤ (doReload ys s).slots.length ∧
      ∀ k, (∀ i ∈ s.items, i.slot ≠ k) → k < s.slots.length → (doReload ys s).slots[k]? = s.slots[k]? := by
    intro ys
    have := reloadLibs_len s.items (s.libs.zipIdx.map fun p => (p.1, ys p.2)) s.files s.slots
    exact ⟨by unfold doReload; simp [h], rfl, Nat.le_of_eq this.1.symm, fun k hk _ => this.2.2 k hk⟩
  cases e <;> simp only [step]
  case init sym fb =>
    by_cases ho : s.at_ = .out
    · rw [if_pos ho]
      unfold init
      rw [if_pos h]
      refine ⟨h, rfl, by simp, ?_⟩
      intro k _ hk
      exact List.getElem?_append_left hk
    · rw [if_neg ho]; exact ⟨h, by first | rfl | trivial, Nat.le_refl _, fun _ _ _ => by first | rfl | trivial⟩
  case here => split <;> exact ⟨h, by first | rfl | trivial, Nat.le_refl _, fun _ _ _ => by first | rfl | trivial⟩
  case go ys =>
    unfold go
    split
    · exact ⟨h, by first | rfl | trivial, Nat.le_refl _, fun _ _ _ => by first | rfl | trivial⟩
    · split <;> exact ⟨h, by first | rfl | trivial, Nat.le_refl _, fun _ _ _ => by first | rfl | trivial⟩
    · exact ⟨h, by first | rfl | trivial, Nat.le_refl _, fun _ _ _ => by first | rfl | trivial⟩
    · exact reload ys
    · exact ⟨h, by first | rfl | trivial, Nat.le_refl _, fun _ _ _ => by first | rfl | trivial⟩
  case signal ys =>
    have e : ∀ t : St, (callBack t).reloading = t.reloading ∧ (callBack t).items = t.items ∧ (callBack t).slots = t.slots := by
      intro t; unfold callBack; cases t.cb <;> exact ⟨rfl, rfl, rfl⟩
    unfold onSignal
    obtain ⟨e1, e2, e3⟩ := e (if s.manual then { s with signalled := true } else doReload ys s)
    rw [e1, e2, e3]
    by_cases hm : s.manual
    · rw [if_pos hm]; exact ⟨h, by first | rfl | trivial, Nat.le_refl _, fun _ _ _ => by first | rfl | trivial⟩
    · rw [if_neg hm]; exact reload ys
  all_goals exact ⟨h, by first | rfl | trivial, Nat.le_refl _, fun _ _ _ => by first | rfl | trivial⟩

/-- **A function announced after the first reload is never replaced**, whatever happens later: that a reload is under way is never
taken back, so the program takes every later function for one of the new library's. -/
theorem late_never_partial (s : St) (sym : Str) (fb : Ptr) (evs : List Ev) (hr : s.reloading = true) (ho : s.at_ = .out)
    (hlt : ∀ i ∈ s.items, i.slot < s.slots.length) :
    (run (step s (.init sym fb)) evs).slots[s.slots.length]? = some fb := by
  have start : (step s (.init sym fb)).reloading = true ∧ (step s (.init sym fb)).items = s.items ∧
      (step s (.init sym fb)).slots[s.slots.length]? = some fb := by
    simp only [step, if_pos ho]
    unfold init
    rw [if_pos hr]
    refine ⟨hr, rfl, ?_⟩
    rw [List.getElem?_append_right (Nat.le_refl _), Nat.sub_self]; rfl
  have : ∀ (evs : List Ev) (t : St), t.reloading = true → t.items = s.items → t.slots[s.slots.length]? = some fb →
      (run t evs).slots[s.slots.length]? = some fb := by
    intro evs
    induction evs with
    | nil => intro t _ _ h; exact h
    | cons e evs ih =>
      intro t h1 h2 h3
      obtain ⟨a, b, -, d⟩ := reloading_stays t e h1
      apply ih _ a (b.trans h2)
      rw [d]
      · exact h3
      · intro i hi
        rw [h2] at hi
        have := hlt i hi
        omega
      · rcases Nat.lt_or_ge s.slots.length t.slots.length with h | h
        · exact h
        · rw [List.getElem?_eq_none h] at h3; cases h3
  exact this evs _ start.1 start.2.1 start.2.2

/-- the name looked for beside the executable -/
theorem exePath_eq (exe name q : Str) (h : exePath exe name = some q) :
    ∃ dir base, exe = dir ++ ch '/' :: base ∧ ch '/' ∉ base ∧ q = dir ++ ch '/' :: name := by
  unfold exePath at h
  split at h
  · rename_i hm
    have := List.takeWhile_append_dropWhile (p := (· ≠ ch '/')) (l := exe.reverse)
    cases hd : exe.reverse.dropWhile (· ≠ ch '/') with
    | nil =>
      rw [hd, List.append_nil] at this
      have hall : ∀ c ∈ exe.reverse, c ≠ ch '/' := by
        intro c hc
        rw [← this] at hc
        have hw : ∀ (l : List Byte), ∀ c ∈ l.takeWhile (· ≠ ch '/'), c ≠ ch '/' := by
          intro l
          induction l with
          | nil => simp
          | cons a l ih =>
            intro c hc
            rw [List.takeWhile_cons] at hc
            split at hc
            · rename_i ha
              rcases List.mem_cons.1 hc with rfl | hc
              · simpa using ha
              · exact ih c hc
            · cases hc
        exact hw _ c hc
      exact absurd rfl (hall _ (List.mem_reverse.2 hm))
    | cons a t =>
      have ha : a = ch '/' := by
        have hw : ∀ (l : List Byte) a t, l.dropWhile (· ≠ ch '/') = a :: t → a = ch '/' := by
          intro l
          induction l with
          | nil => intro a t h; cases h
          | cons b l ih =>
            intro a t h
            rw [List.dropWhile_cons] at h
            split at h
            · exact ih a t h
            · rename_i hb
              cases h
              simpa using hb
        exact hw _ a t hd
      subst ha
      rw [hd] at this h
      refine ⟨t.reverse, (exe.reverse.takeWhile (· ≠ ch '/')).reverse, ?_, ?_, ?_⟩
      · have e := congrArg List.reverse this
        rw [List.reverse_reverse, List.reverse_append, List.reverse_cons] at e
        exact e.symm.trans (by simp)
      · intro hc
        have hw : ∀ (l : List Byte), ∀ c ∈ l.takeWhile (· ≠ ch '/'), c ≠ ch '/' := by
          intro l
          induction l with
          | nil => simp
          | cons a l ih =>
            intro c hc
            rw [List.takeWhile_cons] at hc
            split at hc
            · rename_i ha
              rcases List.mem_cons.1 hc with rfl | hc
              · simpa using ha
              · exact ih c hc
            · cases hc
        exact hw _ _ (List.mem_reverse.1 hc) rfl
      · have := Option.some.inj h
        rw [← this]; simp
  · cases h

/-- and it fits the buffer, with the byte at its end -/
theorem exePath_fits (exe name q : Str) (h : exePath exe name = some q)
    (hl : exe.length > 0 ∧ exe.length < bufsiz (name.length + 1) - (name.length + 1)) : q.length + 1 ≤ bufsiz (name.length + 1) := by
  obtain ⟨dir, base, e, -, rfl⟩ := exePath_eq exe name q h
  have := congrArg List.length e
  rw [List.length_append, List.length_cons] at this
  rw [List.length_append, List.length_cons]
  omega

/-- Without renaming, no name is put together that does not fit: what is loaded does not depend on what the system would answer for
longer names. -/
theorem openPlain_fits (y y' : Sys) (fs : Files) (ld : Loader) (he : y'.exe = y.exe)
    (agree : ∀ q, q = ld.filename ∨ q.length + 1 ≤ bufsiz (ld.filename.length + 1) → y'.dlopen fs q = y.dlopen fs q) :
    openPlain y' fs ld = openPlain y fs ld := by
  unfold openPlain
  rw [agree _ (.inl rfl), he]
  cases y.dlopen fs ld.filename with
  | some h => rfl
  | none =>
    dsimp only
    by_cases hp : ld.abs_path ≠ none
    · rw [if_pos hp, if_pos hp]
    · rw [if_neg hp, if_neg hp]
      cases y.exe with
      | none => rfl
      | some exe =>
        dsimp only
        by_cases hl : exe.length > 0 ∧ exe.length < bufsiz (ld.filename.length + 1) - (ld.filename.length + 1)
        · rw [if_pos hl, if_pos hl]
          cases hx : exePath exe ld.filename with
          | none => rfl
          | some q => exact agree q (.inr (exePath_fits exe _ q hx hl))
        · rw [if_neg hl, if_neg hl]

/-! ## Examples -/

/-- a system where a library's handle is the version it was loaded from; version 1 has no `f` -/
def sample (stale : Bool) : Sys where
  info := fun _ => some (str "/lib/x")
  suffix := str "7"
  deny := false
  denyBack := false
  dlopen := fun fs q => if q = str "x" ∧ stale then some 1 else (fs (if q = str "x" then str "/lib/x" else q))
  exe := none
  dlsym := fun h _ => if h = 1 then none else some (100 + h)

def fileAt (v : File) : Files := fun q => if q = str "/lib/x" then some v else none

/-- **A library that at first has none of the functions announced is never replaced** where the system, asked for a name again,
answers with the library it has open: the path is only asked for of a function found. -/
theorem stale_partial : ∃ evs, (run (start (str "x") (fileAt 1)) evs).files (str "/lib/x") = some 2 ∧
    (run (start (str "x") (fileAt 1)) evs).slots = [50] ∧ (sample true).dlsym 2 (str "f") = some 102 :=
  ⟨[.init (str "f") 50, .signal fun _ => sample true, .build (fileAt 2), .signal fun _ => sample true], by decide, by decide, by decide⟩

/-- version 2 replaces the fallback, version 3 replaces version 2, in manual mode when `here` is called -/
example : (run (start (str "x") (fileAt 2)) [.init (str "f") 50, .signal fun _ => sample false]).slots = [102] ∧
    (run (start (str "x") (fileAt 2)) [.init (str "f") 50, .signal fun _ => sample false, .here, .go fun _ => sample true,
      .build (fileAt 3), .signal fun _ => sample true]).slots = [102] ∧
    (run (start (str "x") (fileAt 2)) [.init (str "f") 50, .signal fun _ => sample false, .here, .go fun _ => sample true,
      .build (fileAt 3), .signal fun _ => sample true, .here, .go fun _ => sample true, .go fun _ => sample true,
      .go fun _ => sample true, .go fun _ => sample true]).slots = [103] := by decide

/-- the hypotheses of `newest` are met -/
example : ∃ h ld', (doReload (fun _ => sample false) ⟨true, true, false, none, [⟨str "x", some 2, none, some (str "/lib/x"), none⟩],
      [⟨str "f", 0⟩], [102], fileAt 3, .out, [], 1⟩).libs = [ld'] ∧ ld'.handle = some h ∧ id h = 3 := by
  obtain ⟨h, ld', a, b, c, -⟩ := newest id (fun _ => { sample false with dlopen := fun fs q => fs q })
    ⟨true, true, false, none, [⟨str "x", some 2, none, some (str "/lib/x"), none⟩], [⟨str "f", 0⟩], [102], fileAt 3, .out, [], 1⟩
    _ (str "/lib/x") 3 rfl rfl (by decide) rfl (by decide) (fun _ _ _ h => h) (fun _ _ h => h) (by decide) (by decide)
  exact ⟨3, _, rfl, rfl, rfl⟩

/-- a late function: after one reload -/
example : (run (start (str "x") (fileAt 2)) [.signal fun _ => sample false, .init (str "f") 50, .signal fun _ => sample false]).slots = [50] := by
  decide

end Verif.Hotswap
