import Verif.CliMain

/-!
# C95: the theorems
-/

namespace Verif.Cli

/-! ## What is passed on -/

theorem take_all (argv : List Str) : ∀ (which : List Str) (r : List Str) (idx n : Nat), (∀ w ∈ which, Passable w) →
    argv.drop idx = which ++ r → (∀ w, r.head? = some w → ¬ Passable w) → which.length < n →
    take argv n idx = some (which, idx + which.length + 1)
  | [], r, idx, n, _, hd, hr, hn => by
    obtain ⟨m, rfl⟩ : ∃ m, n = m + 1 := ⟨n - 1, by omega⟩
    rw [take]
    simp only [List.nil_append] at hd
    have : next argv idx = [] ∨ (str "--").isPrefixOf (next argv idx) = true := by
      cases r with
      | nil => exact .inl (next_nil hd).1
      | cons v t =>
        rw [(next_drop hd).1]
        have := hr v rfl
        simp only [Passable, Classical.not_and_iff_not_or_not, Classical.not_not] at this
        rcases this with h | h
        · exact .inl h
        · exact .inr (List.isPrefixOf_iff_prefix.mpr h)
    rw [if_pos this]
    rfl
  | w :: ws, r, idx, n, hw, hd, hr, hn => by
    obtain ⟨m, rfl⟩ : ∃ m, n = m + 1 := ⟨n - 1, by omega⟩
    obtain ⟨h1, h2⟩ := next_drop (v := w) (r := ws ++ r) (by simpa using hd)
    have hp := hw w (by simp)
    rw [take, h1]
    rw [if_neg (by
      rintro (h | h)
      · exact hp.1 h
      · exact hp.2 (List.isPrefixOf_iff_prefix.mp h))]
    rw [take_all argv ws r (idx + 1) m (fun x hx => hw x (by simp [hx])) h2 hr (by simp at hn; omega)]
    simp; omega

theorem take_reads (argv : List Str) : ∀ (n idx : Nat) (which : List Str) (idx' : Nat),
    take argv n idx = some (which, idx') →
    (∀ w ∈ which, Passable w) ∧ idx' = idx + which.length + 1 ∧ argv.drop idx = which ++ argv.drop (idx' - 1)
  | 0, _, _, _, h => by simp [take] at h
  | n + 1, idx, which, idx', h => by
    rw [take] at h
    split at h
    · simp only [Option.some.injEq, Prod.mk.injEq] at h
      obtain ⟨rfl, rfl⟩ := h
      exact ⟨by simp, by simp, by simp⟩
    · next hne =>
      rw [not_or] at hne
      cases ht : take argv n (idx + 1) with
      | none => rw [ht] at h; simp at h
      | some r =>
        rw [ht] at h
        simp only [Option.map_some, Option.some.injEq, Prod.mk.injEq] at h
        obtain ⟨rfl, rfl⟩ := h
        cases hd : argv.drop idx with
        | nil => exact absurd (next_nil hd).1 hne.1
        | cons v t =>
          obtain ⟨h1, h2⟩ := next_drop hd
          obtain ⟨i1, i2, i3⟩ := take_reads argv n (idx + 1) r.1 r.2 ht
          rw [h1] at hne ⊢
          refine ⟨?_, by simp; omega, ?_⟩
          · intro w hw
            rcases List.mem_cons.mp hw with rfl | hw
            · exact ⟨hne.1, fun h => hne.2 (List.isPrefixOf_iff_prefix.mpr h)⟩
            · exact i1 w hw
          · rw [← h2, i3]; simp

theorem passthrough_all (argv : List Str) (n : Nat) (word : Str) (hword : word ≠ []) (which ws r : List Str) (idx : Nat)
    (hp : Passed word which ws) (hd : argv.drop idx = ws ++ r) (hr : ∀ w, r.head? = some w → ¬ Passable w ∧ w ≠ word)
    (hn : which.length < n) : passthrough argv n word idx = some (which, idx + ws.length) := by
  unfold passthrough
  rcases hp with ⟨rfl, rfl⟩ | ⟨rfl, hw⟩
  · simp only [List.nil_append] at hd
    have : next argv idx ≠ word := by
      cases r with
      | nil => rw [(next_nil hd).1]; exact Ne.symm hword
      | cons v t => rw [(next_drop hd).1]; exact (hr v rfl).2
    rw [if_neg this]
    simp
  · obtain ⟨h1, h2⟩ := next_drop (v := word) (r := which ++ r) (by simpa using hd)
    rw [if_pos h1, take_all argv which r (idx + 1) n hw h2 (fun w h => (hr w h).1) hn]
    simp; omega

theorem passthrough_reads (argv : List Str) (n : Nat) (word : Str) (hword : word ≠ []) (which : List Str) (idx idx' : Nat)
    (h : passthrough argv n word idx = some (which, idx')) :
    ∃ ws, Passed word which ws ∧ argv.drop idx = ws ++ argv.drop idx' := by
  unfold passthrough at h
  split at h
  · next hw =>
    cases hd : argv.drop idx with
    | nil => exact absurd ((next_nil hd).1.symm.trans hw) (Ne.symm hword)
    | cons v t =>
      obtain ⟨h1, h2⟩ := next_drop hd
      cases ht : take argv n (idx + 1) with
      | none => rw [ht] at h; simp at h
      | some r =>
        rw [ht] at h
        simp only [Option.map_some, Option.some.injEq, Prod.mk.injEq] at h
        obtain ⟨rfl, rfl⟩ := h
        obtain ⟨i1, i2, i3⟩ := take_reads argv n (idx + 1) r.1 r.2 ht
        refine ⟨word :: r.1, .inr ⟨rfl, i1⟩, ?_⟩
        rw [← h2, i3, ← h1, hw]; simp
  · simp only [Option.some.injEq, Prod.mk.injEq, Nat.add_sub_cancel] at h
    obtain ⟨rfl, rfl⟩ := h
    exact ⟨[], .inl ⟨rfl, rfl⟩, by simp⟩

theorem take_total (argv : List Str) : ∀ (n idx : Nat), argv.length - idx < n → take argv n idx ≠ none
  | 0, idx, h => by omega
  | n + 1, idx, h => by
    rw [take]
    split
    · simp
    · next hne =>
      rw [not_or] at hne
      cases hd : argv.drop idx with
      | nil => exact absurd (next_nil hd).1 hne.1
      | cons v t =>
        have hlt : idx < argv.length := by
          have := congrArg List.length hd
          simp only [List.length_drop, List.length_cons] at this
          omega
        have := take_total argv n (idx + 1) (by omega)
        simpa using this

theorem passthrough_total (argv : List Str) (n : Nat) (word : Str) (idx : Nat) (hn : argv.length < n) :
    passthrough argv n word idx ≠ none := by
  unfold passthrough
  split
  · have := take_total argv n (idx + 1) (by omega)
    simpa using this
  · simp

/-! ## From the first word to the last -/

theorem next_one (argv : List Str) (self v : Str) (r : List Str) (h : argv = self :: v :: r) :
    next argv 1 = v ∧ argv.drop 2 = r := by
  subst h; simp [next]

theorem letters_enough (self v : Str) (r : List Str) : left v r < letters (self :: v :: r) := by
  simp only [letters, left, List.map_cons, List.sum_cons]; omega

/-- What is there behind the options and the file is not an option. -/
theorem not_special (self file : Str) (join : Str → Str) (pre : List Str) (cc ld cws lws : List Str) (hf : IsPath join file)
    (hc : Passed (str "--cflags") cc cws) (hl : Passed (str "--libs") ld lws) (x : Str)
    (hx : x = str "--help" ∨ x = str "--version") : (self :: (pre ++ file :: (cws ++ lws))).getLast? ≠ some x := by
  have hxp : ¬ Passable x := by
    rcases hx with rfl | rfl <;> exact fun h => h.2 (by decide)
  intro h
  have hm : x ∈ file :: (cws ++ lws) := by
    have : self :: (pre ++ file :: (cws ++ lws)) = (self :: pre) ++ (file :: (cws ++ lws)) := by simp
    rw [this, List.getLast?_append] at h
    cases hg : (file :: (cws ++ lws)).getLast? with
    | none => simp at hg
    | some y =>
      rw [hg] at h
      simp only [Option.some_or, Option.some.injEq] at h
      rw [← h]
      exact List.mem_of_getLast? hg
  have hpassed : ∀ word which ws, Passed word which ws → x ∈ ws → x ≠ word → False := by
    intro word which ws hp hxw hne
    rcases hp with ⟨_, rfl⟩ | ⟨rfl, hw⟩
    · simp at hxw
    · rcases List.mem_cons.mp hxw with h | h
      · exact hne h
      · exact hxp (hw x h)
  simp only [List.mem_cons, List.mem_append] at hm
  rcases hm with h | h | h
  · rw [← h] at hf
    rcases hx with rfl | rfl <;> exact hf.2.1 (by decide)
  · exact hpassed _ _ _ hc h (by rcases hx with rfl | rfl <;> decide)
  · exact hpassed _ _ _ hl h (by rcases hx with rfl | rfl <;> decide)

/-- What `finish` gives. -/
def job (join : Str → Str) (cwd : Str) (c : C) (file : Str) (cc ld : List Str) : Job :=
  let src := if c.emitCpp ∧ c.src = [] then cwd else c.src
  ⟨join file, if c.emitBin ∧ c.bin = [] then defaultBin (join file) else c.bin, src,
    if c.emitCpp ∧ c.cpp = [] then src else c.cpp, c.obj, c.scheme, c.run, c.watch, c.hotswap, c.shared, c.nocache, c.notest,
    c.test, cc, ld⟩

theorem finish_eq (join : Str → Str) (cwd : Str) (argv : List Str) (n : Nat) (c : C) (file : Str) (idx : Nat)
    (hf : IsPath join file) (cc ld cws lws junk : List Str) (hc : Passed (str "--cflags") cc cws)
    (hl : Passed (str "--libs") ld lws) (hj : junk = [] ∨ junk.head? = some []) (hn : argv.length < n)
    (hd : argv.drop idx = cws ++ lws ++ junk) :
    finish join cwd argv n c file idx =
      if c.notest ∧ c.test then .err .bothTests else .go (job join cwd c file cc ld) := by
  have hlen : ∀ word which ws, Passed word which ws → which.length ≤ ws.length := by
    intro word which ws hp
    rcases hp with ⟨rfl, rfl⟩ | ⟨rfl, _⟩ <;> simp
  have hle : cws.length + lws.length ≤ argv.length := by
    have := congrArg List.length hd
    simp only [List.length_drop, List.length_append] at this
    omega
  have h1 := hlen _ _ _ hc
  have h2 := hlen _ _ _ hl
  have hjunk : ∀ w, junk.head? = some w → ¬ Passable w ∧ w = [] := by
    intro w hw
    rcases hj with rfl | hj
    · simp at hw
    · rw [hj] at hw; cases hw; exact ⟨fun h => h.1 rfl, rfl⟩
  have p1 := passthrough_all argv n (str "--cflags") (by decide) cc cws (lws ++ junk) idx hc (by simpa using hd)
    (by
      intro w hw
      rcases hl with ⟨_, rfl⟩ | ⟨rfl, _⟩
      · have := hjunk w (by simpa using hw)
        exact ⟨this.1, by rw [this.2]; decide⟩
      · simp only [List.cons_append, List.head?_cons, Option.some.injEq] at hw
        subst hw
        exact ⟨fun h => h.2 (by decide), by decide⟩)
    (by omega)
  have hd2 : argv.drop (idx + cws.length) = lws ++ junk := by
    rw [← List.drop_drop, hd, List.append_assoc, List.drop_left]
  have p2 := passthrough_all argv n (str "--libs") (by decide) ld lws junk (idx + cws.length) hl hd2
    (by
      intro w hw
      have := hjunk w hw
      exact ⟨this.1, by rw [this.2]; decide⟩)
    (by omega)
  have hd3 : argv.drop (idx + cws.length + lws.length) = junk := by
    rw [← List.drop_drop, hd2, List.drop_left]
  have hn3 : next argv (idx + cws.length + lws.length) = [] := by
    cases hjk : junk with
    | nil => rw [hjk] at hd3; exact (next_nil hd3).1
    | cons v t => rw [hjk] at hd3; rw [(next_drop hd3).1]; exact (hjunk v (by simp [hjk])).2
  have ha := abs_path hf
  simp only [finish, ha, hf.2.2, if_false, p1, p2, hn3, ne_eq, not_true_eq_false]
  rfl

theorem cli_run (join : Str → Str) (cwd self file : Str) (os : List O) (ws cc ld cws lws junk : List Str)
    (hw : Written join os ws) (hf : IsPath join file) (hc : Passed (str "--cflags") cc cws)
    (hl : Passed (str "--libs") ld lws) (hj : junk = [] ∨ junk.head? = some [])
    (hs : self :: (ws ++ file :: (cws ++ lws ++ junk)) ≠ [self, str "self"])
    (h1 : (self :: (ws ++ file :: (cws ++ lws ++ junk))).getLast? ≠ some (str "--help"))
    (h2 : (self :: (ws ++ file :: (cws ++ lws ++ junk))).getLast? ≠ some (str "--version")) :
    cli join cwd (self :: (ws ++ file :: (cws ++ lws ++ junk))) =
      match applyAll join {} os with
      | .error e => .err e
      | .ok c => if c.notest ∧ c.test then .err .bothTests else .go (job join cwd c file cc ld) := by
  obtain ⟨v, r, hvr⟩ : ∃ v r, ws ++ file :: (cws ++ lws ++ junk) = v :: r := by cases ws <;> simp
  rw [hvr] at hs h1 h2 ⊢
  unfold cli
  rw [if_neg (by simp), if_neg h1, if_neg h2, if_neg (by
    rintro ⟨q1, q2⟩
    have : r = [] := by simpa using q1
    subst this
    simp only [List.getElem?_cons_succ, List.getElem?_cons_zero, Option.some.injEq] at q2
    exact hs (by rw [q2]))]
  obtain ⟨n1, n2⟩ := next_one _ self v r rfl
  obtain ⟨idx, hd, hloop⟩ := loop_written join (self :: v :: r) file (isArg_path hf) (cws ++ lws ++ junk) hw {} v 2
    (letters (self :: v :: r)) (by rw [n2]; exact letters_enough self v r) (by rw [n2, hvr])
  rw [n1, hloop]
  cases applyAll join {} os with
  | error e => rfl
  | ok c =>
    simp only
    exact finish_eq join cwd _ _ c file idx hf cc ld cws lws junk hc hl hj (by simp only [letters]; omega) hd

theorem written_paths {join : Str → Str} {os : List O} {ws : List Str} (h : Written join os ws) :
    ∀ o ∈ os, ∀ p, o.path = some p → IsPath join p := by
  induction h with
  | nil => intro o ho; simp at ho
  | words h1 h2 _ ih =>
    intro o ho p hp
    rcases List.mem_cons.mp ho with rfl | ho
    · exact h2 p hp
    · exact ih o ho p hp
  | letter h1 _ ih =>
    intro o ho p hp
    rcases List.mem_cons.mp ho with rfl | ho
    · exfalso
      unfold O.path at hp
      split at hp <;> simp [O.letter] at h1 hp
    · exact ih o ho p hp
  | together h1 _ _ ih =>
    intro o ho p hp
    rcases List.mem_cons.mp ho with rfl | ho
    · exfalso
      unfold O.path at hp
      split at hp <;> simp [O.letter] at h1 hp
    · exact ih o ho p hp

theorem once_iff (os : List O) : Consistent os ↔ Once {} os ∧ ¬ (O.notest ∈ os ∧ O.test ∈ os) := by
  simp only [Consistent, Once, times, if_true, Nat.zero_add, Option.isSome_none, Bool.false_eq_true, if_false]
  constructor
  · rintro ⟨a, b, c, d, e, f⟩; exact ⟨⟨a, b, c, d, e⟩, f⟩
  · rintro ⟨⟨a, b, c, d, e⟩, f⟩; exact ⟨a, b, c, d, e, f⟩

theorem path_mem (join : Str → Str) (os : List O) (hp : ∀ o ∈ os, ∀ p, o.path = some p → IsPath join p) :
    (∀ p ∈ srcs os, join p ≠ []) ∧ (∀ p ∈ cpps os, join p ≠ []) ∧ (∀ p ∈ objs os, join p ≠ []) ∧ (∀ p ∈ bins os, join p ≠ []) := by
  refine ⟨?_, ?_, ?_, ?_⟩
  all_goals
    intro p h
    simp only [srcs, cpps, objs, bins, List.mem_filterMap] at h
    obtain ⟨o, ho, h⟩ := h
    split at h <;> simp only [Option.some.injEq, reduceCtorEq] at h
    subst h
    exact (hp _ ho _ rfl).2.2

theorem job_asked (join : Str → Str) (cwd : Str) (os : List O) (file : Str) (cc ld : List Str)
    (hp : ∀ o ∈ os, ∀ p, o.path = some p → IsPath join p) (ho : O.obj none ∉ os) :
    job join cwd (raw join {} os) file cc ld = asked join cwd os file cc ld := by
  obtain ⟨k1, k2, k3, k4⟩ := path_mem join os hp
  have hsrc : (if (raw join {} os).emitCpp = true ∧ (raw join {} os).src = [] then cwd else (raw join {} os).src)
      = srcDir join cwd os := by
    simp only [raw, got, if_true, srcDir, Bool.false_or]
    cases hs : srcs os with
    | nil => simp
    | cons p t =>
      have := k1 p (by simp [hs])
      simp [this]
  have hsrc' := hsrc
  simp only [job, asked, Job.mk.injEq, hsrc, true_and]
  refine ⟨?_, ?_, ?_, ?_⟩
  · simp only [raw, got, if_true, Bool.false_or]
    cases hs : bins os with
    | nil => simp
    | cons p t =>
      have := k4 p (by simp [hs])
      simp [this]
  · simp only [raw, got, if_true, Bool.false_or]
    cases hs : cpps os with
    | nil => simp
    | cons p t =>
      have := k2 p (by simp [hs])
      simp [this]
  · simp only [raw, got, if_true]
    cases hs : objs os with
    | nil => simp [ho]
    | cons p t => simp
  · simp [raw]

/-! ## The theorems -/

/-- **C95.** Whatever options are asked for, and however they are written, `fu` does what they ask for, on that file and with
those flags passed on.  Partial: `-o` is left out (`obj_letter_bug`). -/
theorem means_partial (join : Str → Str) (cwd self file : Str) (os : List O) (ws cc ld cws lws : List Str)
    (hw : Written join os ws) (hf : IsPath join file) (hc : Passed (str "--cflags") cc cws)
    (hl : Passed (str "--libs") ld lws) (hs : self :: (ws ++ file :: (cws ++ lws)) ≠ [self, str "self"])
    (hos : Consistent os) (ho : O.obj none ∉ os) :
    cli join cwd (self :: (ws ++ file :: (cws ++ lws))) = .go (asked join cwd os file cc ld) := by
  have hp := written_paths hw
  have h := cli_run join cwd self file os ws cc ld cws lws [] hw hf hc hl (.inl rfl) (by simpa using hs)
    (by simpa using not_special self file join ws cc ld cws lws hf hc hl _ (.inl rfl))
    (by simpa using not_special self file join ws cc ld cws lws hf hc hl _ (.inr rfl))
  simp only [List.append_nil] at h
  rw [h]
  obtain ⟨o1, o2⟩ := (once_iff os).mp hos
  rcases applyAll_spec join os {} hp with ⟨_, e⟩ | ⟨ne, _⟩
  · rw [e]
    simp only
    rw [if_neg (by simpa [raw] using o2), job_asked join cwd os file cc ld hp ho]
  · exact absurd o1 ne

/-- **C95.** What asks for two things at once is refused. -/
theorem inconsistent_refused (join : Str → Str) (cwd self file : Str) (os : List O) (ws cc ld cws lws : List Str)
    (hw : Written join os ws) (hf : IsPath join file) (hc : Passed (str "--cflags") cc cws)
    (hl : Passed (str "--libs") ld lws) (hs : self :: (ws ++ file :: (cws ++ lws)) ≠ [self, str "self"])
    (hos : ¬ Consistent os) : ∃ e, cli join cwd (self :: (ws ++ file :: (cws ++ lws))) = .err e := by
  have hp := written_paths hw
  have h := cli_run join cwd self file os ws cc ld cws lws [] hw hf hc hl (.inl rfl) (by simpa using hs)
    (by simpa using not_special self file join ws cc ld cws lws hf hc hl _ (.inl rfl))
    (by simpa using not_special self file join ws cc ld cws lws hf hc hl _ (.inr rfl))
  simp only [List.append_nil] at h
  rw [h]
  rcases applyAll_spec join os {} hp with ⟨o1, e⟩ | ⟨_, e, he⟩
  · rw [e]
    simp only
    rw [if_pos (by
      have : ¬ ¬ (O.notest ∈ os ∧ O.test ∈ os) := fun h => hos ((once_iff os).mpr ⟨o1, h⟩)
      simpa [raw] using Classical.not_not.mp this)]
    exact ⟨_, rfl⟩
  · exact ⟨e, by rw [he]⟩

/-- **C95.** Nothing else is accepted: if `fu` goes to work, the words are options, a file and flags that were asked for
without contradiction (up to an empty word, see `empty_word_bug`). -/
theorem nothing_else (join : Str → Str) (cwd : Str) (argv : List Str) (j : Job) (h : cli join cwd argv = .go j) :
    ∃ self os ws file cc ld cws lws junk, argv = self :: (ws ++ file :: (cws ++ lws ++ junk)) ∧ Written join os ws
      ∧ IsPath join file ∧ Passed (str "--cflags") cc cws ∧ Passed (str "--libs") ld lws
      ∧ (junk = [] ∨ junk.head? = some []) ∧ Consistent os
      ∧ (O.obj none ∉ os → j = asked join cwd os file cc ld) := by
  unfold cli at h
  split at h
  · cases h
  split at h
  · cases h
  split at h
  · cases h
  split at h
  · cases h
  split at h
  · cases h
  · cases h
  next c val idx hloop =>
  simp only [finish] at h
  split at h
  · cases h
  next hfn =>
  have hf := isPath_abs hfn
  obtain ⟨os, ws, w1, w2, w3, w4⟩ := loop_reads join argv val hf.1 c idx _ _ _ _ hloop
  have hargv : ∃ self, argv = self :: (next argv 1 :: argv.drop 2) := by
    match argv with
    | [] =>
      simp only [next, List.drop_nil, List.getElem?_nil, Option.getD_none] at w2
      cases ws with
      | nil => simp only [List.nil_append, List.cons.injEq] at w2; exact absurd w2.1.symm hf.1
      | cons a b => simp at w2
    | [a] => simp at *
    | a :: b :: r => exact ⟨a, by simp [next]⟩
  obtain ⟨self, hargv⟩ := hargv
  split at h
  · cases h
  next cc idx1 hp1 =>
  split at h
  · cases h
  next ld idx2 hp2 =>
  split at h
  · cases h
  next hnext =>
  split at h
  · cases h
  next hboth =>
  obtain ⟨cws, c1, c2⟩ := passthrough_reads _ _ _ (by decide) _ _ _ hp1
  obtain ⟨lws, l1, l2⟩ := passthrough_reads _ _ _ (by decide) _ _ _ hp2
  have hp := written_paths w1
  simp only [ne_eq, Decidable.not_not] at hnext
  have hj : argv.drop idx2 = [] ∨ (argv.drop idx2).head? = some [] := by
    cases hd : argv.drop idx2 with
    | nil => exact .inl rfl
    | cons v t => right; rw [← (next_drop hd).1, hnext]; rfl
  rcases applyAll_spec join os {} hp with ⟨o1, e⟩ | ⟨_, e, he⟩
  · rw [e] at w3
    cases w3
    refine ⟨self, os, ws, val, cc, ld, cws, lws, argv.drop idx2, ?_, w1, hf, c1, l1, hj, ?_, ?_⟩
    · exact hargv.trans (by rw [w2, c2, l2]; simp)
    · exact (once_iff os).mpr ⟨o1, by simpa [raw] using hboth⟩
    · intro ho
      rw [← job_asked join cwd os val cc ld hp ho]
      simp only [Out.go.injEq] at h
      rw [← h, abs_path hf]
      rfl
  · rw [he] at w3; cases w3

/-- **C95.** It always comes to an answer. -/
theorem ends (join : Str → Str) (cwd : Str) (argv : List Str) : cli join cwd argv ≠ .hang := by
  unfold cli
  split
  · simp
  split
  · simp
  split
  · simp
  split
  · simp
  split
  · next hl =>
    refine absurd hl (loop_total join argv _ _ _ _ ?_)
    match argv with
    | [] => simp [left, letters, next]
    | [a] => simp [left, letters, next]; omega
    | a :: b :: r =>
      have := letters_enough a b r
      simpa [next] using this
  · simp
  · next c val idx _ =>
    simp only [finish]
    split
    · simp
    have ht := fun word idx => passthrough_total argv (letters argv) word idx (by simp only [letters]; omega)
    split
    · next h => exact absurd h (ht _ _)
    split
    · next h => exact absurd h (ht _ _)
    split
    · simp
    split <;> simp

/-- How it ends, for a reader who takes any error for the same. -/
def sameOut (a b : Out) : Prop := a = b ∨ ∃ e e', a = .err e ∧ b = .err e'

theorem perm_short {α : Type} {l l' : List α} (h : l.Perm l') (hl : l.length ≤ 1) : l = l' := by
  match l, hl with
  | [], _ => exact (List.nil_perm.mp h).symm
  | [a], _ => exact List.singleton_perm.mp h

/-- **C95.** Neither the order of the options nor the way they are written matters. -/
theorem order_free (join : Str → Str) (cwd self file : Str) (os os' : List O) (ws ws' cc ld cws lws : List Str)
    (hw : Written join os ws) (hw' : Written join os' ws') (hperm : os.Perm os') (hf : IsPath join file)
    (hc : Passed (str "--cflags") cc cws) (hl : Passed (str "--libs") ld lws) (hfs : file ≠ str "self") :
    sameOut (cli join cwd (self :: (ws ++ file :: (cws ++ lws)))) (cli join cwd (self :: (ws' ++ file :: (cws ++ lws)))) := by
  have hns : ∀ ws : List Str, self :: (ws ++ file :: (cws ++ lws)) ≠ [self, str "self"] := by
    intro ws h
    cases ws with
    | nil =>
      simp only [List.nil_append, List.cons.injEq, true_and] at h
      exact hfs h.1
    | cons a b => simp at h
  have hp := written_paths hw
  have hp' := written_paths hw'
  have run := fun os ws (hw : Written join os ws) => cli_run join cwd self file os ws cc ld cws lws [] hw hf hc hl (.inl rfl)
    (by simpa using hns ws)
    (by simpa using not_special self file join ws cc ld cws lws hf hc hl _ (.inl rfl))
    (by simpa using not_special self file join ws cc ld cws lws hf hc hl _ (.inr rfl))
  have r1 := run os ws hw
  have r2 := run os' ws' hw'
  simp only [List.append_nil] at r1 r2
  have hcons : Once {} os ↔ Once {} os' := by
    simp only [Once, times]
    rw [show (srcs os).length = (srcs os').length from (hperm.filterMap _).length_eq,
      show (cpps os).length = (cpps os').length from (hperm.filterMap _).length_eq,
      show (objs os).length = (objs os').length from (hperm.filterMap _).length_eq,
      show (bins os).length = (bins os').length from (hperm.filterMap _).length_eq,
      show (schemes os).length = (schemes os').length from (hperm.filterMap _).length_eq]
  rcases applyAll_spec join os {} hp with ⟨o1, e⟩ | ⟨n1, e, he⟩
  · rcases applyAll_spec join os' {} hp' with ⟨o2, e2⟩ | ⟨n2, _⟩
    · left
      have hraw : raw join {} os = raw join {} os' := by
        simp only [Once, times, if_true, Nat.zero_add, Option.isSome_none, Bool.false_eq_true, if_false] at o1
        obtain ⟨a1, a2, a3, a4, a5⟩ := o1
        have b1 : srcs os = srcs os' := perm_short (hperm.filterMap _) a1
        have b2 : cpps os = cpps os' := perm_short (hperm.filterMap _) a2
        have b3 : objs os = objs os' := perm_short (hperm.filterMap _) a3
        have b4 : bins os = bins os' := perm_short (hperm.filterMap _) a4
        have b5 : schemes os = schemes os' := perm_short (hperm.filterMap _) a5
        simp only [raw, b1, b2, b3, b4, b5, hperm.mem_iff]
      rw [r1, r2, e, e2, hraw]
    · exact absurd (hcons.mp o1) n2
  · rcases applyAll_spec join os' {} hp' with ⟨o2, e2⟩ | ⟨n2, e', he'⟩
    · exact absurd (hcons.mpr o2) n1
    · right
      exact ⟨e, e', by rw [r1, he], by rw [r2, he']⟩

/-- The name of the binary: the source without its ending. -/
theorem defaultBin_fu (base : Str) : defaultBin (base ++ str ".fu") = base := by
  have h : (str ".fu").isSuffixOf (base ++ str ".fu") = true := by simp
  rw [defaultBin, if_pos h]
  simp [str]

/-! ## Where it goes wrong -/

/-- C95: `-o`, which is to write the object files next to the sources, changes nothing. -/
theorem obj_letter_bug (join : Str → Str) (cwd self file : Str) (ws cc ld cws lws : List Str) (os : List O)
    (hw : Written join os ws) (hf : IsPath join file) (hc : Passed (str "--cflags") cc cws)
    (hl : Passed (str "--libs") ld lws) (hfs : file ≠ str "self") :
    cli join cwd (self :: ((str "-o" :: ws) ++ file :: (cws ++ lws))) = cli join cwd (self :: (ws ++ file :: (cws ++ lws))) := by
  have hns : ∀ ws : List Str, self :: (ws ++ file :: (cws ++ lws)) ≠ [self, str "self"] := by
    intro ws h
    cases ws with
    | nil =>
      simp only [List.nil_append, List.cons.injEq, true_and] at h
      exact hfs h.1
    | cons a b => simp at h
  have run := fun os ws (hw : Written join os ws) => cli_run join cwd self file os ws cc ld cws lws [] hw hf hc hl (.inl rfl)
    (by simpa using hns ws)
    (by simpa using not_special self file join ws cc ld cws lws hf hc hl _ (.inl rfl))
    (by simpa using not_special self file join ws cc ld cws lws hf hc hl _ (.inr rfl))
  have hw' : Written join (.obj none :: os) (str "-o" :: ws) := .letter (c := ch 'o') rfl hw
  have hp := written_paths hw
  have hp' := written_paths hw'
  have r1 := run os ws hw
  have r2 := run _ _ hw'
  simp only [List.append_nil] at r1 r2
  rw [r1, r2]
  have hce : ∀ (os : List O) (c : C), applyAll join { c with emitObj := true } os =
      match applyAll join c os with
      | .error e => .error e
      | .ok c => .ok { c with emitObj := true } := by
    intro os
    induction os with
    | nil => intro c; rfl
    | cons o os ih =>
      intro c
      have hstep : apply join { c with emitObj := true } o = match apply join c o with
          | .error e => .error e
          | .ok c => .ok { c with emitObj := true } := by
        cases o with
        | src p => simp only [apply]; split <;> rfl
        | cpp d => cases d <;> simp only [apply]; split <;> rfl
        | obj d => cases d <;> simp only [apply]; split <;> rfl
        | bin d => cases d <;> simp only [apply]; split <;> rfl
        | scheme s => simp only [apply]; split <;> rfl
        | _ => rfl
      simp only [applyAll, hstep]
      cases apply join c o with
      | error e => rfl
      | ok c1 => exact ih c1
  have h0 : applyAll join {} (.obj none :: os) = applyAll join { ({} : C) with emitObj := true } os := rfl
  rw [h0, hce]
  cases applyAll join {} os <;> rfl

/-- C95: `--release`, which `--help` lists, is an unknown option. -/
theorem release_bug (join : Str → Str) (cwd self : Str) (r : List Str)
    (h1 : (self :: str "--release" :: r).getLast? ≠ some (str "--help"))
    (h2 : (self :: str "--release" :: r).getLast? ≠ some (str "--version")) :
    cli join cwd (self :: str "--release" :: r) = .err .unknown := by
  unfold cli
  rw [if_neg (by simp), if_neg h1, if_neg h2, if_neg (by
    rintro ⟨_, h⟩
    simp only [List.getElem?_cons_succ, List.getElem?_cons_zero, Option.some.injEq] at h
    exact absurd h (by decide))]
  obtain ⟨n1, n2⟩ := next_one _ self (str "--release") r rfl
  have hl : ∃ n, letters (self :: str "--release" :: r) = n + 1 := ⟨letters (self :: str "--release" :: r) - 1, by simp only [letters]; omega⟩
  obtain ⟨n, hl⟩ := hl
  have ht : ∀ (argv : List Str) (v : Str) (i : Nat), turn join argv {} ⟨str "--release", v, i⟩ = .error .unknown := by
    intro argv v i
    simp [turn, option, flags, str, ch]
  rw [n1, hl, loop, if_pos (by decide)]
  have hst : ∀ argv idx, start argv (str "--release") idx = ⟨str "--release", next argv idx, idx + 1⟩ := by
    intro argv idx; simp [start, str]
  rw [hst, ht]

/-- C95: behind an empty word anything goes. -/
theorem empty_word_bug (join : Str → Str) (cwd self file : Str) (os : List O) (ws cc ld cws lws junk : List Str)
    (hw : Written join os ws) (hf : IsPath join file) (hc : Passed (str "--cflags") cc cws)
    (hl : Passed (str "--libs") ld lws) (hos : Consistent os) (ho : O.obj none ∉ os)
    (h1 : ([] :: junk).getLast? ≠ some (str "--help")) (h2 : ([] :: junk).getLast? ≠ some (str "--version")) :
    cli join cwd (self :: (ws ++ file :: (cws ++ lws ++ [] :: junk))) = .go (asked join cwd os file cc ld) := by
  have hlast : (self :: (ws ++ file :: (cws ++ lws ++ [] :: junk))).getLast? = (([] : Str) :: junk).getLast? := by
    have : self :: (ws ++ file :: (cws ++ lws ++ [] :: junk)) = (self :: (ws ++ file :: (cws ++ lws))) ++ ([] :: junk) := by simp
    rw [this, List.getLast?_append]
    cases hg : (([] : Str) :: junk).getLast? with
    | none => simp at hg
    | some y => rfl
  have hp := written_paths hw
  rw [cli_run join cwd self file os ws cc ld cws lws ([] :: junk) hw hf hc hl (.inr rfl)
    (by intro h; have := congrArg List.length h; simp at this; omega) (by rw [hlast]; exact h1) (by rw [hlast]; exact h2)]
  obtain ⟨o1, o2⟩ := (once_iff os).mp hos
  rcases applyAll_spec join os {} hp with ⟨_, e⟩ | ⟨ne, _⟩
  · rw [e]
    simp only
    rw [if_neg (by simpa [raw] using o2), job_asked join cwd os file cc ld hp ho]
  · exact absurd o1 ne

/-! ## Cases -/

/-- `fu -rw --bin out --debug x.fu --cflags -O2 -g --libs -lm` -/
example : Written (fun p => ch '/' :: p) [.run, .watch, .bin (some (str "out")), .scheme .debug]
    [str "-rw", str "--bin", str "out", str "--debug"] := by
  refine .together (c := ch 'r') (w := [ch 'w']) (os := [.watch, .bin (some (str "out")), .scheme .debug])
    (ws := [str "--bin", str "out", str "--debug"]) rfl (by simp) ?_
  refine .letter (c := ch 'w') rfl ?_
  refine .words (w := [str "--bin", str "out"]) (ws := [str "--debug"]) rfl ?_ ?_
  · intro p h
    cases h
    exact ⟨by decide, by decide, by decide⟩
  · exact .words (w := [str "--debug"]) (ws := []) rfl (fun p h => by cases h) .nil

example : Consistent [.run, .watch, .bin (some (str "out")), .scheme .debug] := by
  simp [Consistent, srcs, cpps, objs, bins, schemes]

example : Passed (str "--cflags") [str "-O2", str "-g"] [str "--cflags", str "-O2", str "-g"] :=
  .inr ⟨rfl, by
    intro w h
    simp only [List.mem_cons, List.not_mem_nil, or_false] at h
    rcases h with rfl | rfl <;> exact ⟨by decide, by decide⟩⟩

example : cli (fun p => ch '/' :: p) (str "/w")
    [str "fu", str "-rw", str "--bin", str "out", str "--debug", str "x.fu", str "--cflags", str "-O2", str "--libs", str "-lm"]
    = .go { fname := str "/x.fu", bin := str "/out", src := [], cpp := [], obj := [], scheme := some .debug, run := true,
            watch := true, hotswap := false, shared := false, nocache := false, notest := false, test := false,
            cflags := [str "-O2"], libs := [str "-lm"] } := by decide

example : ¬ Consistent [.notest, .test] ∧ ¬ Consistent [.scheme .debug, .scheme .retail] := by
  simp [Consistent, schemes]

end Verif.Cli
