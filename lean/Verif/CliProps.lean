import Verif.CliSpec

/-!
# C95: the loop reads the options
-/

namespace Verif.Cli

/-- What one option does. -/
def apply (join : Str → Str) (c : C) : O → Except Err C
  | .src p => if c.src ≠ [] then .error .already else .ok { c with src := join p }
  | .cpp none => .ok { c with emitCpp := true }
  | .cpp (some p) => if c.cpp ≠ [] then .error .already else .ok { c with cpp := join p, emitCpp := true }
  | .obj none => .ok { c with emitObj := true }
  | .obj (some p) => if c.obj ≠ [] then .error .already else .ok { c with obj := join p, emitObj := true }
  | .bin none => .ok { c with emitBin := true }
  | .bin (some p) => if c.bin ≠ [] then .error .already else .ok { c with bin := join p, emitBin := true }
  | .scheme s => if c.scheme.isSome then .error .scheme else .ok { c with scheme := some s }
  | .run => .ok { c with run := true }
  | .watch => .ok { c with watch := true }
  | .hotswap => .ok { c with hotswap := true }
  | .shared => .ok { c with shared := true }
  | .nocache => .ok { c with nocache := true }
  | .notest => .ok { c with notest := true }
  | .test => .ok { c with test := true }

/-- What several do. -/
def applyAll (join : Str → Str) (c : C) : List O → Except Err C
  | [] => .ok c
  | o :: os => match apply join c o with
    | .error e => .error e
    | .ok c => applyAll join c os

/-- Words with a path. -/
def O.takes (o : O) : Bool := o.path.isSome

theorem abs_path {join : Str → Str} {p : Str} (h : IsPath join p) : abs join p = join p := by
  simp [abs, h.1, h.2.1]

theorem turn_letter (join : Str → Str) (argv : List Str) (o : O) (l : Byte) (h : o.letter = some l) (c : C) (val : Str)
    (idx : Nat) : ∃ opt, turn join argv c ⟨[l], val, idx⟩ = match apply join c o with
      | .error e => .error e
      | .ok c' => .ok (c', ⟨opt, val, idx⟩) := by
  unfold O.letter at h
  split at h <;> simp only [Option.some.injEq, reduceCtorEq] at h <;> subst h
  · exact ⟨[], by simp [turn, option, flags, apply, str, ch]⟩
  · exact ⟨[], by simp [turn, option, flags, apply, str, ch]⟩
  · exact ⟨[], by simp [turn, option, flags, apply, str, ch]⟩
  · refine ⟨[ch 'd'], ?_⟩
    by_cases e : c.scheme.isSome = true <;> simp [turn, option, flags, apply, str, ch, e]
  · exact ⟨[ch 'r'], by simp [turn, option, flags, apply, str, ch]⟩
  · exact ⟨[ch 'w'], by simp [turn, option, flags, apply, str, ch]⟩
  · exact ⟨[ch 'h'], by simp [turn, option, flags, apply, str, ch]⟩
  · exact ⟨[ch 't'], by simp [turn, option, flags, apply, str, ch]⟩

theorem turn_word (join : Str → Str) (argv : List Str) (o : O) (w : Str) (h : o.words = some [w]) (c : C) (val : Str)
    (idx : Nat) : ∃ opt, turn join argv c ⟨w, val, idx⟩ = match apply join c o with
      | .error e => .error e
      | .ok c' => .ok (c', ⟨opt, val, idx⟩) := by
  refine ⟨w, ?_⟩
  unfold O.words at h
  split at h <;> simp only [Option.some.injEq, List.cons.injEq, reduceCtorEq, and_true, and_false] at h <;> subst h
  case h_5 | h_6 | h_7 =>
    by_cases e : c.scheme.isSome = true <;> simp [turn, option, flags, apply, str, ch, e]
  all_goals simp [turn, option, flags, apply, str, ch]

theorem turn_path (join : Str → Str) (argv : List Str) (o : O) (w p : Str) (h : o.words = some [w, p])
    (hp : IsPath join p) (c : C) (idx : Nat) : ∃ opt, turn join argv c ⟨w, p, idx⟩ = match apply join c o with
      | .error e => .error e
      | .ok c' => .ok (c', ⟨opt, next argv idx, idx + 1⟩) := by
  refine ⟨[], ?_⟩
  have ha := abs_path hp
  have hj := hp.2.2
  unfold O.words at h
  split at h <;> simp only [Option.some.injEq, List.cons.injEq, reduceCtorEq, and_true, and_false] at h <;>
    obtain ⟨h1, h2⟩ := h <;> subst h1 <;> subst h2
  · by_cases e : c.src = [] <;> simp [turn, option, flags, apply, str, ch, e, ha, hj]
  · by_cases e : c.cpp = [] <;> simp [turn, option, flags, apply, str, ch, e, ha, hj]
  · by_cases e : c.obj = [] <;> simp [turn, option, flags, apply, str, ch, e, ha, hj]
  · by_cases e : c.bin = [] <;> simp [turn, option, flags, apply, str, ch, e, ha, hj]

theorem words_cases (o : O) (w : List Str) (h : o.words = some w) :
    (∃ a b, w = [ch '-' :: ch '-' :: a :: b] ∧ o.path = none) ∨
      (∃ a b p, w = [ch '-' :: ch '-' :: a :: b, p] ∧ o.path = some p) := by
  unfold O.words at h
  split at h <;> simp only [Option.some.injEq, reduceCtorEq] at h <;> subst h <;>
    simp [str, O.path, ch]

theorem letter_ne (o : O) (l : Byte) (h : o.letter = some l) : l ≠ ch '-' := by
  unfold O.letter at h
  split at h <;> simp only [Option.some.injEq, reduceCtorEq] at h <;> subst h <;> decide

theorem isPath_abs {join : Str → Str} {p : Str} (h : abs join p ≠ []) : IsPath join p := by
  unfold abs at h
  split at h
  · next e => exact ⟨e.1, e.2, h⟩
  · exact absurd rfl h

theorem turn_path_fails (join : Str → Str) (argv : List Str) (o : O) (w p : Str) (h : o.words = some [w, p])
    (hp : abs join p = []) (c : C) (idx : Nat) : ∃ e, turn join argv c ⟨w, p, idx⟩ = .error e := by
  unfold O.words at h
  split at h <;> simp only [Option.some.injEq, List.cons.injEq, reduceCtorEq, and_true, and_false] at h <;>
    obtain ⟨h1, h2⟩ := h <;> subst h1 <;> subst h2
  · by_cases e : c.src = [] <;> simp [turn, option, str, ch, e, hp]
  · by_cases e : c.cpp = [] <;> simp [turn, option, str, ch, e, hp]
  · by_cases e : c.obj = [] <;> simp [turn, option, str, ch, e, hp]
  · by_cases e : c.bin = [] <;> simp [turn, option, str, ch, e, hp]

/-- What a turn that goes well has read. -/
inductive Read (join : Str → Str) (argv : List Str) (c : C) (opt val : Str) (idx : Nat) (c' : C) (s : P) : Prop where
  | letter (o : O) (l : Byte) (h : o.letter = some l) (e : opt = [l]) (ha : apply join c o = .ok c')
      (hv : s.val = val) (hi : s.idx = idx)
  | word (o : O) (h : o.words = some [opt]) (ha : apply join c o = .ok c') (hv : s.val = val) (hi : s.idx = idx)
  | path (o : O) (h : o.words = some [opt, val]) (hp : IsPath join val) (ha : apply join c o = .ok c')
      (hv : s.val = next argv idx) (hi : s.idx = idx + 1)

theorem read_letter {join : Str → Str} {argv : List Str} {c : C} {val : Str} {idx : Nat} {c' : C} {s : P} (o : O) (l : Byte)
    (h : o.letter = some l) (ht : turn join argv c ⟨[l], val, idx⟩ = .ok (c', s)) : Read join argv c [l] val idx c' s := by
  obtain ⟨opt, e⟩ := turn_letter join argv o l h c val idx
  rw [e] at ht
  split at ht
  · cases ht
  · next c1 hc =>
    simp only [Except.ok.injEq, Prod.mk.injEq] at ht
    obtain ⟨rfl, rfl⟩ := ht
    exact .letter o l h rfl hc rfl rfl

theorem read_word {join : Str → Str} {argv : List Str} {c : C} {val : Str} {idx : Nat} {c' : C} {s : P} (o : O) (w : Str)
    (h : o.words = some [w]) (ht : turn join argv c ⟨w, val, idx⟩ = .ok (c', s)) : Read join argv c w val idx c' s := by
  obtain ⟨opt, e⟩ := turn_word join argv o w h c val idx
  rw [e] at ht
  split at ht
  · cases ht
  · next c1 hc =>
    simp only [Except.ok.injEq, Prod.mk.injEq] at ht
    obtain ⟨rfl, rfl⟩ := ht
    exact .word o h hc rfl rfl

theorem read_path {join : Str → Str} {argv : List Str} {c : C} {val : Str} {idx : Nat} {c' : C} {s : P} (o : O) (w : Str)
    (h : o.words = some [w, val]) (ht : turn join argv c ⟨w, val, idx⟩ = .ok (c', s)) : Read join argv c w val idx c' s := by
  by_cases hp : abs join val = []
  · obtain ⟨e, he⟩ := turn_path_fails join argv o w val h hp c idx
    rw [he] at ht; cases ht
  · obtain ⟨opt, e⟩ := turn_path join argv o w val h (isPath_abs hp) c idx
    rw [e] at ht
    split at ht
    · cases ht
    · next c1 hc =>
      simp only [Except.ok.injEq, Prod.mk.injEq] at ht
      obtain ⟨rfl, rfl⟩ := ht
      exact .path o h (isPath_abs hp) hc rfl rfl

theorem turn_reads (join : Str → Str) (argv : List Str) (c : C) (opt val : Str) (idx : Nat) (c' : C) (s : P)
    (h0 : opt ≠ []) (h1 : opt ≠ str "-") (ht : turn join argv c ⟨opt, val, idx⟩ = .ok (c', s)) :
    Read join argv c opt val idx c' s := by
  by_cases e1 : opt = str "--src"
  · subst e1; exact read_path (.src val) _ rfl ht
  by_cases e2 : opt = str "c"
  · subst e2; exact read_letter (.cpp none) _ rfl ht
  by_cases e3 : opt = str "--cpp"
  · subst e3; exact read_path (.cpp (some val)) _ rfl ht
  by_cases e4 : opt = str "o"
  · subst e4; exact read_letter (.obj none) _ rfl ht
  by_cases e5 : opt = str "--obj"
  · subst e5; exact read_path (.obj (some val)) _ rfl ht
  by_cases e6 : opt = str "b"
  · subst e6; exact read_letter (.bin none) _ rfl ht
  by_cases e7 : opt = str "--bin"
  · subst e7; exact read_path (.bin (some val)) _ rfl ht
  by_cases e8 : opt = str "d"
  · subst e8; exact read_letter (.scheme .debug) _ rfl ht
  by_cases e9 : opt = str "--debug"
  · subst e9; exact read_word (.scheme .debug) _ rfl ht
  by_cases e10 : opt = str "--reldeb"
  · subst e10; exact read_word (.scheme .reldeb) _ rfl ht
  by_cases e11 : opt = str "--retail"
  · subst e11; exact read_word (.scheme .retail) _ rfl ht
  by_cases e12 : opt = str "--watch"
  · subst e12; exact read_word .watch _ rfl ht
  by_cases e13 : opt = str "w"
  · subst e13; exact read_letter .watch _ rfl ht
  by_cases e14 : opt = str "--run"
  · subst e14; exact read_word .run _ rfl ht
  by_cases e15 : opt = str "r"
  · subst e15; exact read_letter .run _ rfl ht
  by_cases e16 : opt = str "--hotswap"
  · subst e16; exact read_word .hotswap _ rfl ht
  by_cases e17 : opt = str "h"
  · subst e17; exact read_letter .hotswap _ rfl ht
  by_cases e18 : opt = str "--shared"
  · subst e18; exact read_word .shared _ rfl ht
  by_cases e19 : opt = str "--nocache"
  · subst e19; exact read_word .nocache _ rfl ht
  by_cases e20 : opt = str "--notest"
  · subst e20; exact read_word .notest _ rfl ht
  by_cases e21 : opt = str "--test"
  · subst e21; exact read_word .test _ rfl ht
  by_cases e22 : opt = str "t"
  · subst e22; exact read_letter .test _ rfl ht
  simp [turn, option, flags, h0, h1, e1, e2, e3, e4, e5, e6, e7, e8, e9, e10, e11, e12, e13, e14, e15, e16, e17, e18, e19,
    e20, e21, e22] at ht

/-! ## Where a turn begins -/

theorem start_word (argv : List Str) (a : Byte) (b : Str) (idx : Nat) :
    start argv (ch '-' :: ch '-' :: a :: b) idx = ⟨ch '-' :: ch '-' :: a :: b, next argv idx, idx + 1⟩ := by
  simp [start]

theorem start_letter (argv : List Str) (l : Byte) (hl : l ≠ ch '-') (idx : Nat) :
    start argv [ch '-', l] idx = ⟨[l], next argv idx, idx + 1⟩ := by
  simp [start, hl, str]

theorem start_letters (argv : List Str) (l : Byte) (hl : l ≠ ch '-') (w : Str) (hw : w ≠ []) (idx : Nat) :
    start argv (ch '-' :: l :: w) idx = ⟨[l], ch '-' :: w, idx⟩ := by
  simp [start, hl, str, hw]

theorem next_drop {argv : List Str} {idx : Nat} {v : Str} {r : List Str} (h : argv.drop idx = v :: r) :
    next argv idx = v ∧ argv.drop (idx + 1) = r := by
  constructor
  · have : (argv.drop idx)[0]? = some v := by simp [h]
    simp only [List.getElem?_drop, Nat.add_zero] at this
    simp [next, this]
  · have : (argv.drop idx).drop 1 = r := by simp [h]
    simpa [List.drop_drop] using this

theorem next_nil {argv : List Str} {idx : Nat} (h : argv.drop idx = []) :
    next argv idx = [] ∧ argv.drop (idx + 1) = [] := by
  have hl : argv.length ≤ idx := by simpa using h
  constructor
  · simp [next, List.getElem?_eq_none hl]
  · simp; omega

/-- Letters left. -/
def left (val : Str) (rest : List Str) : Nat := ((val :: rest).map (·.length + 1)).sum

/-- Not read as an option. -/
def isArg (v : Str) : Prop := ¬ (1 < v.length ∧ v.head? = some (ch '-'))

theorem loop_stops (join : Str → Str) (argv : List Str) (n : Nat) (c : C) (v : Str) (idx : Nat) (h : isArg v) :
    loop join argv (n + 1) c v idx = some (.ok (c, v, idx)) := by
  rw [loop, if_neg h]

theorem isArg_path {join : Str → Str} {p : Str} (h : IsPath join p) : isArg p := fun e => h.2.1 e.2

theorem loop_written (join : Str → Str) (argv : List Str) (file : Str) (hf : isArg file) (rest : List Str) {os : List O}
    {ws : List Str} (hw : Written join os ws) : ∀ (c : C) (val : Str) (idx n : Nat), left val (argv.drop idx) < n →
    val :: argv.drop idx = ws ++ file :: rest →
    ∃ idx', argv.drop idx' = rest ∧ loop join argv n c val idx = match applyAll join c os with
      | .error e => some (.error e)
      | .ok c' => some (.ok (c', file, idx')) := by
  induction hw with
  | nil =>
    intro c val idx n hn he
    simp only [List.nil_append, List.cons.injEq] at he
    obtain ⟨rfl, he⟩ := he
    obtain ⟨m, rfl⟩ : ∃ m, n = m + 1 := ⟨n - 1, by omega⟩
    exact ⟨idx, he, by rw [loop_stops _ _ _ _ _ _ hf]; rfl⟩
  | @words o w os ws ho hp _ ih =>
    intro c val idx n hn he
    obtain ⟨m, rfl⟩ : ∃ m, n = m + 1 := ⟨n - 1, by omega⟩
    rcases words_cases o w ho with ⟨a, b, rfl, hnp⟩ | ⟨a, b, p, rfl, hpp⟩
    · simp only [List.cons_append, List.nil_append, List.cons.injEq] at he
      obtain ⟨rfl, he⟩ := he
      obtain ⟨v, r, hvr⟩ : ∃ v r, ws ++ file :: rest = v :: r := by cases ws <;> simp
      rw [hvr] at he
      obtain ⟨hn1, hn2⟩ := next_drop he
      obtain ⟨opt, ht⟩ := turn_word join argv o _ ho c v (idx + 1)
      rw [loop, if_pos (by simp), start_word, hn1, ht]
      cases hc : apply join c o with
      | error e =>
        refine ⟨argv.length - rest.length, ?_, by simp [applyAll, hc]⟩
        have hsuf : rest <:+ argv := by
          refine List.IsSuffix.trans ?_ (List.drop_suffix idx argv)
          rw [he, ← hvr]; exact ⟨ws ++ [file], by simp⟩
        exact (List.suffix_iff_eq_drop.mp hsuf).symm
      | ok c1 =>
        obtain ⟨idx', h1, h2⟩ := ih c1 v (idx + 1) m
          (by rw [he] at hn; simp only [left, List.map_cons, List.sum_cons] at hn ⊢; rw [hn2]; simp at hn; omega)
          (by rw [hn2, hvr])
        exact ⟨idx', h1, by simp only [applyAll, hc]; exact h2⟩
    · simp only [List.cons_append, List.nil_append, List.cons.injEq] at he
      obtain ⟨rfl, he⟩ := he
      obtain ⟨v, r, hvr⟩ : ∃ v r, ws ++ file :: rest = v :: r := by cases ws <;> simp
      rw [hvr] at he
      obtain ⟨hn1, hn2⟩ := next_drop he
      obtain ⟨hn3, hn4⟩ := next_drop hn2
      obtain ⟨opt, ht⟩ := turn_path join argv o _ p ho (hp p hpp) c (idx + 1)
      rw [loop, if_pos (by simp), start_word, hn1, ht]
      cases hc : apply join c o with
      | error e =>
        refine ⟨argv.length - rest.length, ?_, by simp [applyAll, hc]⟩
        have hsuf : rest <:+ argv := by
          refine List.IsSuffix.trans ?_ (List.drop_suffix idx argv)
          rw [he, ← hvr]; exact ⟨p :: (ws ++ [file]), by simp⟩
        exact (List.suffix_iff_eq_drop.mp hsuf).symm
      | ok c1 =>
        obtain ⟨idx', h1, h2⟩ := ih c1 v (idx + 1 + 1) m
          (by rw [he] at hn; simp only [left, List.map_cons, List.sum_cons] at hn ⊢; rw [hn4]; simp at hn; omega)
          (by rw [hn4, hvr])
        exact ⟨idx', h1, by simp only [applyAll, hc, hn3]; exact h2⟩
  | @letter o l os ws ho _ ih =>
    intro c val idx n hn he
    obtain ⟨m, rfl⟩ : ∃ m, n = m + 1 := ⟨n - 1, by omega⟩
    simp only [List.cons_append, List.cons.injEq] at he
    obtain ⟨rfl, he⟩ := he
    obtain ⟨v, r, hvr⟩ : ∃ v r, ws ++ file :: rest = v :: r := by cases ws <;> simp
    rw [hvr] at he
    obtain ⟨hn1, hn2⟩ := next_drop he
    obtain ⟨opt, ht⟩ := turn_letter join argv o l ho c v (idx + 1)
    rw [loop, if_pos (by simp), start_letter _ _ (letter_ne o l ho), hn1, ht]
    cases hc : apply join c o with
    | error e =>
      refine ⟨argv.length - rest.length, ?_, by simp [applyAll, hc]⟩
      have hsuf : rest <:+ argv := by
        refine List.IsSuffix.trans ?_ (List.drop_suffix idx argv)
        rw [he, ← hvr]; exact ⟨ws ++ [file], by simp⟩
      exact (List.suffix_iff_eq_drop.mp hsuf).symm
    | ok c1 =>
      obtain ⟨idx', h1, h2⟩ := ih c1 v (idx + 1) m
        (by rw [he] at hn; simp only [left, List.map_cons, List.sum_cons] at hn ⊢; rw [hn2]; simp at hn; omega)
        (by rw [hn2, hvr])
      exact ⟨idx', h1, by simp only [applyAll, hc]; exact h2⟩
  | @together o l w os ws ho hw0 _ ih =>
    intro c val idx n hn he
    obtain ⟨m, rfl⟩ : ∃ m, n = m + 1 := ⟨n - 1, by omega⟩
    simp only [List.cons_append, List.cons.injEq] at he
    obtain ⟨rfl, he⟩ := he
    obtain ⟨opt, ht⟩ := turn_letter join argv o l ho c (ch '-' :: w) idx
    rw [loop, if_pos (by simp), start_letters _ _ (letter_ne o l ho) _ hw0, ht]
    cases hc : apply join c o with
    | error e =>
      refine ⟨argv.length - rest.length, ?_, by simp [applyAll, hc]⟩
      have hsuf : rest <:+ argv := by
        refine List.IsSuffix.trans ?_ (List.drop_suffix idx argv)
        rw [he]; exact ⟨ws ++ [file], by simp⟩
      exact (List.suffix_iff_eq_drop.mp hsuf).symm
    | ok c1 =>
      obtain ⟨idx', h1, h2⟩ := ih c1 (ch '-' :: w) idx m
        (by simp only [left, List.map_cons, List.sum_cons, List.length_cons] at hn ⊢; omega)
        (by rw [he]; simp)
      exact ⟨idx', h1, by simp only [applyAll, hc]; exact h2⟩

/-! ## The loop reads nothing else -/

/-- What is at the start of a turn. -/
inductive Begin (argv : List Str) (val : Str) (idx : Nat) : Prop where
  | word (a : Byte) (b : Str) (e : val = ch '-' :: ch '-' :: a :: b)
  | dashes (e : val = [ch '-', ch '-'])
  | letter (l : Byte) (hl : l ≠ ch '-') (e : val = [ch '-', l])
  | letters (l : Byte) (hl : l ≠ ch '-') (w : Str) (hw : w ≠ []) (e : val = ch '-' :: l :: w)

theorem begins (argv : List Str) (val : Str) (idx : Nat) (h : ¬ isArg val) : Begin argv val idx := by
  simp only [isArg, Decidable.not_not] at h
  obtain ⟨h1, h2⟩ := h
  match val, h1, h2 with
  | a :: b :: r, _, h2 =>
    simp only [List.head?_cons, Option.some.injEq] at h2
    subst h2
    by_cases e : b = ch '-'
    · subst e
      cases r with
      | nil => exact .dashes rfl
      | cons a b => exact .word a b rfl
    · cases r with
      | nil => exact .letter b e rfl
      | cons a r => exact .letters b e (a :: r) (by simp) rfl

theorem start_dashes (argv : List Str) (idx : Nat) :
    start argv [ch '-', ch '-'] idx = ⟨[ch '-', ch '-'], next argv idx, idx + 1⟩ := by
  simp [start]

theorem loop_succ (join : Str → Str) (argv : List Str) (n : Nat) (c : C) (v : Str) (idx : Nat) (h : ¬ isArg v) :
    loop join argv (n + 1) c v idx = match turn join argv c (start argv v idx) with
      | .error e => some (.error e)
      | .ok (c, s) => loop join argv n c s.val s.idx := by
  rw [loop, if_pos (by simpa [isArg] using h)]
  rfl

end Verif.Cli
