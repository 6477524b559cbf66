import Verif.Fd
/-! # C45: short reads and writes -/
namespace Verif.Fd
open Verif

/-- failures have a reason -/
def Reasons (os : Os) : Prop := ∀ k e, os k = .fail e → e ≠ 0

theorem writeLoop_spec (os : Os) : ∀ (n k : Nat) (buf file : Str), buf.length ≤ n → ∃ sent rest, buf = sent ++ rest ∧ (writeLoop os k buf file).1 = file ++ sent ∧
    ((∀ j, os j ≠ .count 0) → Reasons os → (writeLoop os k buf file).2 = 0 → rest = []) := by
  intro n
  induction n with
  | zero =>
    intro k buf file h
    have : buf = [] := List.length_eq_zero_iff.1 (by omega)
    subst this
    rw [writeLoop, dif_neg (by simp)]
    exact ⟨[], [], rfl, by simp, fun _ _ _ => rfl⟩
  | succ n ih =>
    intro k buf file h
    rw [writeLoop]
    by_cases h0 : buf.length > 0
    · rw [dif_pos h0]
      cases e : os k with
      | fail err =>
        exact ⟨[], buf, rfl, by simp, fun _ hr h1 => absurd h1 (hr k err e)⟩
      | count m =>
        dsimp only
        by_cases h2 : min m buf.length = 0
        · rw [dif_pos h2]
          refine ⟨[], buf, rfl, by simp, fun hz _ _ => ?_⟩
          exfalso
          apply hz k
          rw [e, show m = 0 by omega]
        · rw [dif_neg h2]
          obtain ⟨sent, rest, h3, h4, h5⟩ := ih (k + 1) (buf.drop (min m buf.length)) (file ++ buf.take (min m buf.length))
            (by rw [List.length_drop]; omega)
          refine ⟨buf.take (min m buf.length) ++ sent, rest, ?_, ?_, h5⟩
          · rw [List.append_assoc, ← h3, List.take_append_drop]
          · rw [h4, List.append_assoc]
    · rw [dif_neg h0]
      have : buf = [] := List.length_eq_zero_iff.1 (by omega)
      subst this
      exact ⟨[], [], rfl, by simp, fun _ _ _ => rfl⟩

/-- **C45** Whatever is in the file after `write` is a beginning of the data, in order. -/
theorem file_write_prefix (os : Os) (openErr closeErr : Int) (data file : Str) (h : (fileWrite os openErr closeErr data).1 = some file) :
    file <+: data := by
  unfold fileWrite at h
  split at h
  · cases h
  · obtain ⟨sent, rest, h1, h2, _⟩ := writeLoop_spec os data.length 0 data [] (Nat.le_refl _)
    dsimp only at h
    rw [h2] at h
    cases h
    exact ⟨rest, by rw [List.nil_append]; exact h1.symm⟩

/-- **C45**, in part: for every schedule of transfers, `write` either reports a failure or has written all the data.
Missing: a system that transfers nothing without reporting a failure, of which it is false (`write_nothing`). -/
theorem file_write_partial (os : Os) (openErr closeErr : Int) (data : Str) (hr : Reasons os) (hz : ∀ k, os k ≠ .count 0)
    (h : (fileWrite os openErr closeErr data).2 = 0) : (fileWrite os openErr closeErr data).1 = some data := by
  unfold fileWrite at h ⊢
  by_cases ho : openErr ≠ 0
  · rw [if_pos ho] at h; exact absurd h ho
  · rw [if_neg ho] at h ⊢
    dsimp only at h ⊢
    obtain ⟨sent, rest, h1, h2, h3⟩ := writeLoop_spec os data.length 0 data [] (Nat.le_refl _)
    have h4 : (writeLoop os 0 data []).2 = 0 := by
      by_cases hc : closeErr ≠ 0 ∧ (writeLoop os 0 data []).2 = 0
      · exact hc.2
      · rw [if_neg hc] at h; exact h
    have h5 := h3 hz hr h4
    subst h5
    rw [h2, h1]; simp

/-- **C45 is false** of `write` when the system transfers nothing: success is reported, and the file is not complete. -/
theorem write_nothing : fileWrite (fun k => if k = 0 then .count 2 else .count 0) 0 0 (str "hello") = (some (str "he"), 0) := by
  simp [fileWrite, writeLoop, str]

theorem store_len {mem : Str} {a : Nat} {xs mem' : Str} (h : store mem a xs = some mem') : mem'.length = mem.length ∧ mem'.take a = mem.take a := by
  unfold store at h
  split at h
  · cases h
    refine ⟨by simp; omega, ?_⟩
    rw [List.append_assoc, List.take_append_of_le_length (by rw [List.length_take]; omega), List.take_take, Nat.min_self]
  · cases h

theorem readLoop_spec (os : Os) (check len1 buf : Nat) : ∀ (n k : Nat) (rest mem : Str) (len0 : Nat), len1 - len0 ≤ n → buf ≤ len0 →
    len1 + check ≤ mem.length → check ≤ 1 → len0 ≤ len1 + check →
    ∃ mem' len0' err, readLoop os check len1 buf k rest mem len0 = some (mem', len0', err) ∧ mem'.length = mem.length ∧ mem'.take buf = mem.take buf ∧
      len0 ≤ len0' ∧ len0' ≤ len1 + check := by
  intro n
  induction n with
  | zero =>
    intro k rest mem len0 h h1 h2 h3 h4
    rw [readLoop, dif_neg (by omega)]
    exact ⟨mem, len0, 0, rfl, rfl, rfl, Nat.le_refl _, h4⟩
  | succ n ih =>
    intro k rest mem len0 h h1 h2 h3 h4
    rw [readLoop]
    by_cases h0 : len1 - len0 > 0
    · rw [dif_pos h0]
      cases e : os k with
      | fail err => exact ⟨mem, len0, err, rfl, rfl, rfl, Nat.le_refl _, h4⟩
      | count m =>
        dsimp only
        generalize hc : min m (min (len1 - len0 + check) rest.length) = count
        by_cases h5 : count = 0
        · rw [dif_pos h5]; exact ⟨mem, len0, 0, rfl, rfl, rfl, Nat.le_refl _, h4⟩
        · rw [dif_neg h5]
          have hs : store mem buf (rest.take count) = some (mem.take buf ++ rest.take count ++ mem.drop (buf + (rest.take count).length)) := by
            unfold store
            rw [if_pos]
            rw [List.length_take]; omega
          rw [hs]
          dsimp only
          obtain ⟨hl, ht⟩ := store_len hs
          obtain ⟨mem', len0', err, e1, e2, e3, e4, e5⟩ := ih (k + 1) (rest.drop count) _ (len0 + count) (by omega) (by omega) (by rw [hl]; exact h2) h3 (by omega)
          exact ⟨mem', len0', err, e1, by rw [e2, hl], by rw [e3, ht], by omega, e5⟩
    · rw [dif_neg h0]; exact ⟨mem, len0, 0, rfl, rfl, rfl, Nat.le_refl _, h4⟩

/-- **C45**, in part: whatever the schedule, `read` stays in bounds, keeps what the output held before, and on success has
added exactly as many bytes as were announced.  Missing: that they are the right bytes, see `file_read_whole_partial` and
`short_read_corrupts`. -/
theorem file_read_frame (os : Os) (closeErr : Int) (size : Nat) (content old spare : Str) (hsp : size ≤ spare.length) :
    ∃ out err, fileRead os closeErr size content old spare = some (out, err) ∧ old <+: out ∧ (err = 0 → out.length = old.length + size) := by
  have hcheck : ∃ check, check = (if (old ++ spare).length > old.length + size then 1 else 0) ∧ check ≤ 1 ∧ old.length + size + check ≤ (old ++ spare).length := by
    refine ⟨_, rfl, ?_, ?_⟩
    · split <;> omega
    · rw [List.length_append]; split <;> omega
  obtain ⟨check, hck, hc1, hc2⟩ := hcheck
  obtain ⟨mem', len0', err, e1, e2, e3, e4, e5⟩ := readLoop_spec os check (old.length + size) old.length _ 0 content (old ++ spare) old.length (Nat.le_refl _)
    (Nat.le_refl _) hc2 hc1 (by omega)
  have hpre : ∀ n, old.length ≤ n → n ≤ mem'.length → old <+: mem'.take n := by
    intro n h1 h2
    have : old = (mem'.take n).take old.length := by
      rw [List.take_take, Nat.min_eq_left h1, e3, List.take_left]
    rw [this]
    exact List.take_prefix _ _
  unfold fileRead
  dsimp only
  rw [← hck, e1]
  simp only [Option.map_some]
  by_cases hl : len0' ≠ old.length + size
  · rw [if_pos hl]
    exact ⟨_, _, rfl, hpre _ e4 (by omega), (fun h => by cases h)⟩
  · rw [if_neg hl]
    exact ⟨_, _, rfl, hpre _ (by omega) (by omega), fun _ => by rw [List.length_take]; omega⟩

/-- **C45**, in part: if the system delivers the whole file at once, `read` appends exactly its contents.  Missing: short
reads, of which it is false (`short_read_corrupts`). -/
theorem file_read_whole_partial (os : Os) (content old spare : Str) (hsp : content.length ≤ spare.length) (n : Nat) (hn : content.length ≤ n) (h0 : os 0 = .count n) :
    fileRead os 0 content.length content old spare = some (old ++ content, 0) := by
  unfold fileRead
  dsimp only
  generalize hck : (if (old ++ spare).length > old.length + content.length then 1 else 0) = check
  have hl : (old ++ spare).length = old.length + spare.length := List.length_append
  by_cases hc : content.length = 0
  · have : content = [] := List.length_eq_zero_iff.1 hc
    subst this
    rw [readLoop, dif_neg (by simp)]
    simp
  · rw [readLoop, dif_pos (by omega), h0]
    dsimp only
    have hcount : min n (min (old.length + content.length - old.length + check) content.length) = content.length := by omega
    rw [hcount, dif_neg hc]
    have hs : store (old ++ spare) old.length (content.take content.length) = some (old ++ content ++ (old ++ spare).drop (old.length + content.length)) := by
      unfold store
      rw [List.take_length, if_pos (by omega), List.take_left]
    rw [hs]
    dsimp only
    rw [readLoop, dif_neg (by omega)]
    simp only [Option.map_some, ne_eq, not_true_eq_false, if_false, false_and]
    rw [List.take_left' (by simp)]

/-- **C45 is false** of `read`: the place the bytes go to is never moved on, so when the system delivers a file in two parts
the second lands on top of the first; success is reported. -/
theorem short_read_corrupts : fileRead (fun _ => .count 3) 0 6 (str "abcdef") [] (str "......") = some (str "def...", 0) := by
  decide +kernel

/-- the same for every file of at least two bytes, and every first short read: the result starts with the second part -/
theorem short_read_always_corrupts (content spare : Str) (a : Nat) (ha : 0 < a) (h : a < content.length) (hsp : content.length ≤ spare.length)
    (os : Os) (h0 : os 0 = .count a) (h1 : os 1 = .count content.length) :
    ∃ out, fileRead os 0 content.length content [] spare = some (out, 0) ∧ out.take (content.length - a) = content.drop a := by
  unfold fileRead
  dsimp only
  generalize hck : (if ([] ++ spare).length > ([] : Str).length + content.length then 1 else 0) = check
  simp only [List.nil_append, List.length_nil, Nat.zero_add]
  rw [readLoop, dif_pos (by omega), h0]
  dsimp only
  have c1 : min a (min (content.length - 0 + check) content.length) = a := by omega
  rw [c1, dif_neg (by omega)]
  have l1 : (content.take a).length = a := by rw [List.length_take]; omega
  have s1 : store spare 0 (content.take a) = some (content.take a ++ spare.drop a) := by
    unfold store; rw [if_pos (by omega), l1]; simp
  rw [s1]
  dsimp only
  rw [readLoop, dif_pos (by omega), h1]
  dsimp only
  have l2 : (content.drop a).length = content.length - a := List.length_drop
  have c2 : min content.length (min (content.length - (0 + a) + check) (content.drop a).length) = content.length - a := by omega
  rw [c2, dif_neg (by omega)]
  have l3 : ((content.drop a).take (content.length - a)) = content.drop a := by rw [List.take_of_length_le (by omega)]
  have s2 : store (content.take a ++ spare.drop a) 0 ((content.drop a).take (content.length - a)) =
      some (content.drop a ++ (content.take a ++ spare.drop a).drop (content.length - a)) := by
    unfold store
    rw [l3, if_pos (by simp; omega), l2]; simp
  rw [s2]
  dsimp only
  rw [readLoop, dif_neg (by omega)]
  simp only [Option.map_some]
  rw [if_neg (by omega)]
  refine ⟨_, rfl, ?_⟩
  rw [List.take_take, show min (content.length - a) content.length = content.length - a by omega, ← l2, List.take_left]

/-- **C45** A file that has grown since it was measured is reported, if there is room to notice. -/
theorem growth_noticed (os : Os) (size : Nat) (content old spare : Str) (hs : 0 < size) (hg : size < content.length) (hsp : size < spare.length) (n : Nat)
    (hn : size < n) (h0 : os 0 = .count n) : ∃ out, fileRead os 0 size content old spare = some (out, ERANGE) := by
  unfold fileRead
  dsimp only
  have hl : (old ++ spare).length = old.length + spare.length := List.length_append
  rw [if_pos (show (old ++ spare).length > old.length + size by omega), readLoop, dif_pos (by omega), h0]
  dsimp only
  have hc : min n (min (old.length + size - old.length + 1) content.length) = size + 1 := by omega
  rw [hc, dif_neg (by omega)]
  have hst : store (old ++ spare) old.length (content.take (size + 1)) = some ((old ++ spare).take old.length ++ content.take (size + 1) ++
      (old ++ spare).drop (old.length + (content.take (size + 1)).length)) := by
    unfold store
    rw [if_pos]
    rw [List.length_take]; omega
  rw [hst]
  dsimp only
  rw [readLoop, dif_neg (by omega)]
  simp only [Option.map_some]
  rw [if_pos (by omega)]
  exact ⟨_, rfl⟩

/-! ### descriptors -/

/-- **C45** One `write` sends a beginning of the data, says how long it is, and sends nothing if it fails. -/
theorem fd_write (a : Ans) (data : Str) : (fdWrite a data).1 <+: data ∧ (fdWrite a data).2.1 = (fdWrite a data).1.length ∧
    ((fdWrite a data).2.2 ≠ 0 → (fdWrite a data).1 = []) := by
  cases a with
  | count n => exact ⟨List.take_prefix _ _, by simp [fdWrite], (fun h => absurd rfl h)⟩
  | fail e => exact ⟨List.nil_prefix, rfl, fun _ => rfl⟩

/-- **C45** Whatever the schedule of transfers and interrupts, what `read_exhaustive` appends to the buffer is exactly what
it took from the stream, in order, and it says how much that is - also if it ends with an error. -/
theorem read_exhaustive_exact (os : Os) (spare : Nat → Int) : ∀ (fuel k : Nat) (stream buffer : Str) (total : Nat) (s' b' : Str) (t' : Nat) (err : Int),
    readExhaustive os spare fuel k stream buffer total = some (s', b', t', err) →
    ∃ got, stream = got ++ s' ∧ b' = buffer ++ got ∧ t' = total + got.length := by
  intro fuel
  induction fuel with
  | zero => intro k stream buffer total s' b' t' err h; cases h
  | succ fuel ih =>
    intro k stream buffer total s' b' t' err h
    unfold readExhaustive at h
    cases e : os k with
    | fail er =>
      rw [e] at h
      dsimp only at h
      by_cases h1 : er ≠ EINTR
      · rw [if_pos h1] at h; cases h
        exact ⟨[], rfl, by simp, by simp⟩
      · rw [if_neg h1] at h
        exact ih _ _ _ _ _ _ _ _ h
    | count n =>
      rw [e] at h
      dsimp only at h
      generalize hg : stream.take (min n (outCapa (spare k))) = got at h
      have hsplit : stream = got ++ stream.drop got.length := by
        conv => lhs; rw [← List.take_append_drop got.length stream]
        congr 1
        rw [← hg, List.length_take]
        by_cases hm : min n (outCapa (spare k)) ≤ stream.length
        · rw [Nat.min_eq_left hm]
        · rw [Nat.min_eq_right (by omega), List.take_length, List.take_of_length_le (by omega)]
      by_cases h1 : got.length = outCapa (spare k)
      · rw [if_pos h1] at h
        obtain ⟨g, h2, h3, h4⟩ := ih _ _ _ _ _ _ _ _ h
        refine ⟨got ++ g, ?_, by rw [h3, List.append_assoc], by rw [h4, List.length_append]; omega⟩
        rw [List.append_assoc, ← h2]; exact hsplit
      · rw [if_neg h1] at h; cases h
        exact ⟨got, hsplit, rfl, rfl⟩

/-- a system that, unless interrupted, hands out all it has - as sockets and pipes do -; with nothing left it says so -/
def Prompt (os : Os) (len : Nat) : Prop := ∀ k, os k = .fail EINTR ∨ ∃ n, os k = .count n ∧ len ≤ n

/-- **C45** Reading from a prompt system takes everything there is, whatever the buffer's capacity, and ends as soon as the
interrupts do. -/
theorem read_exhaustive_all (os : Os) (spare : Nat → Int) (N : Nat) : ∀ (m k : Nat) (stream buffer : Str) (total : Nat), Prompt os stream.length →
    (∀ j, N ≤ j → os j ≠ .fail EINTR) → (N - k) + stream.length ≤ m →
    readExhaustive os spare (m + 1) k stream buffer total = some ([], buffer ++ stream, total + stream.length, 0) := by
  have hcapa : ∀ k, 0 < outCapa (spare k) := by intro k; unfold outCapa; split <;> omega
  intro m
  induction m with
  | zero =>
    intro k stream buffer total hp hi hm
    have hs : stream = [] := List.length_eq_zero_iff.1 (by omega)
    subst hs
    unfold readExhaustive
    rcases hp k with h | ⟨n, h, _⟩
    · exact absurd h (hi k (by omega))
    · rw [h]
      dsimp only
      rw [List.take_nil, if_neg (by have := hcapa k; simp only [List.length_nil]; omega)]
      rfl
  | succ m ih =>
    intro k stream buffer total hp hi hm
    unfold readExhaustive
    rcases hp k with h | ⟨n, h, hn⟩
    · rw [h]
      dsimp only
      rw [if_neg (by simp)]
      have hk : k < N := by
        rcases Nat.lt_or_ge k N with h1 | h1
        · exact h1
        · exact absurd h (hi k h1)
      exact ih (k + 1) stream buffer total hp hi (by omega)
    · rw [h]
      dsimp only
      have ht : stream.take (min n (outCapa (spare k))) = stream.take (outCapa (spare k)) := by
        by_cases h1 : outCapa (spare k) ≤ n
        · rw [Nat.min_eq_right h1]
        · rw [Nat.min_eq_left (by omega), List.take_of_length_le hn, List.take_of_length_le (by omega)]
      rw [ht, List.length_take]
      by_cases h1 : min (outCapa (spare k)) stream.length = outCapa (spare k)
      · rw [if_pos h1, h1]
        have hc := hcapa k
        rw [ih (k + 1) _ _ _ (fun j => (hp j).imp id fun ⟨n, a, b⟩ => ⟨n, a, by rw [List.length_drop]; omega⟩) hi (by rw [List.length_drop]; omega)]
        rw [List.append_assoc, List.take_append_drop, List.length_drop]
        congr 4; omega
      · rw [if_neg h1, List.drop_of_length_le (by omega), List.take_of_length_le (by omega)]
        congr 4; omega

/-! non-vacuity -/
example : Reasons (fun k => if k = 3 then .fail 5 else .count 2) ∧ ∀ k, (fun k => if k = 3 then Ans.fail 5 else .count 2) k ≠ .count 0 := by
  constructor
  · intro k e h; dsimp only at h; split at h <;> cases h; decide
  · intro k h; dsimp only at h; split at h <;> cases h
example : fileWrite (fun _ => .count 2) 0 0 (str "hello") = (some (str "hello"), 0) := by
  simp [fileWrite, writeLoop, str]
example : Prompt (fun k => if k < 2 then .fail EINTR else .count 100) 9 := by
  intro k; dsimp only; split
  · exact Or.inl rfl
  · exact Or.inr ⟨100, rfl, by omega⟩

end Verif.Fd
