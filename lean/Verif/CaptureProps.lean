import Verif.Capture
/-! # C89: capturing the output of a child -/
namespace Verif.Spawn

/-- What was captured and what is still in the pipes is what was sent. -/
def Kept (c : Cap) : Prop := ∀ w, c.got w ++ (c.stream w).buf = (c.stream w).sent

theorem Cap.stream_set (c : Cap) (w v : Bool) (s : Stream) :
    (c.setStream w s).stream v = if v = w then s else c.stream v := by
  cases w <;> cases v <;> rfl

theorem Cap.set_log (c : Cap) (w : Bool) (s : Stream) : (c.setStream w s).log = c.log := by cases w <;> rfl
theorem Cap.set_pc (c : Cap) (w : Bool) (s : Stream) : (c.setStream w s).pc = c.pc := by cases w <;> rfl
theorem Cap.set_fail (c : Cap) (w : Bool) (s : Stream) : (c.setStream w s).fail = c.fail := by cases w <;> rfl
theorem Cap.set_polls (c : Cap) (w : Bool) (s : Stream) : (c.setStream w s).polls = c.polls := by cases w <;> rfl

theorem got_append (c : Cap) (w v : Bool) (bs : List UInt8) (c' : Cap) (h : c'.log = c.log ++ bs.map fun b => (w, b)) :
    c'.got v = c.got v ++ if v = w then bs else [] := by
  unfold Cap.got
  rw [h, List.filter_append, List.map_append]
  congr 1
  by_cases e : v = w
  · subst e
    rw [if_pos rfl]
    clear h
    induction bs with
    | nil => rfl
    | cons b bs ih => simpa using ih
  · rw [if_neg e]
    have hw : ¬ w = v := fun hc => e hc.symm
    clear h
    induction bs with
    | nil => rfl
    | cons b bs ih => simp [hw]

theorem readPoll_kept {c : Cap} (h : Kept c) (w inn : Bool) (e : Errno) (n : Nat) : Kept (readPoll c w inn e n).1 := by
  unfold readPoll
  split
  · split
    · exact h
    · intro v
      dsimp only
      have hg := got_append c w v ((c.stream w).buf.take (readCount (c.stream w).buf.length n))
        ({ c.setStream w { c.stream w with buf := (c.stream w).buf.drop (readCount (c.stream w).buf.length n) } with
          log := c.log ++ ((c.stream w).buf.take (readCount (c.stream w).buf.length n)).map fun b => (w, b) }) rfl
      rw [hg]
      show c.got v ++ _ ++ ((c.setStream w _).stream v).buf = ((c.setStream w _).stream v).sent
      rw [Cap.stream_set]
      by_cases e : v = w
      · subst e
        rw [if_pos rfl, if_pos rfl, List.append_assoc]
        show _ ++ (List.take _ _ ++ List.drop _ _) = (c.stream v).sent
        rw [List.take_append_drop]; exact h v
      · rw [if_neg e, if_neg e, List.append_nil]; exact h v
  · exact h

theorem step_kept {c : Cap} (h : Kept c) (ev : Event) : Kept (step c ev) := by
  cases ev with
  | write w bs =>
    rw [step]
    split
    · exact h
    · intro v
      have hg : Cap.got (c.setStream w { c.stream w with buf := (c.stream w).buf ++ bs, sent := (c.stream w).sent ++ bs }) v = c.got v := by
        unfold Cap.got; rw [Cap.set_log]
      rw [hg, Cap.stream_set]
      by_cases e : v = w
      · subst e
        rw [if_pos rfl]
        show c.got v ++ ((c.stream v).buf ++ bs) = (c.stream v).sent ++ bs
        rw [← List.append_assoc, h v]
      · rw [if_neg e]; exact h v
  | hangup w =>
    rw [step]
    intro v
    have hg : Cap.got (c.setStream w { c.stream w with hup := true }) v = c.got v := by
      unfold Cap.got; rw [Cap.set_log]
    rw [hg, Cap.stream_set]
    by_cases e : v = w
    · subst e; rw [if_pos rfl]; exact h v
    · rw [if_neg e]; exact h v
  | call e n =>
    rw [step]
    split
    · unfold pollStep
      split
      · split <;> exact h
      · split <;> exact h
    · exact readPoll_kept h _ _ _ _
    · dsimp only
      unfold nextRound
      split <;> exact readPoll_kept h _ _ _ _
    · exact h

/-- **C89** Whatever happens, what was captured of a stream is the beginning of what the child wrote to it, in order, with
nothing lost, repeated or taken from the other stream; the rest is still in the pipe. -/
theorem captured_is_prefix (es : List Event) (which : Bool) :
    (play es).got which ++ ((play es).stream which).buf = ((play es).stream which).sent := by
  have key : ∀ (es : List Event) (c : Cap), Kept c → Kept (es.foldl step c) := by
    intro es
    induction es with
    | nil => intro c h; exact h
    | cons e es ih => intro c h; exact ih _ (step_kept h e)
  exact key es {} (fun w => by cases w <;> rfl) which

/-! ## Completeness -/

/-- The child closes a stream only when it writes no more to either: what programs that just exit do. -/
def Together : List Event → Prop
  | [] => True
  | .hangup _ :: es => (∀ w bs, .write w bs ∉ es) ∧ Together es
  | _ :: es => Together es

/-- Someone has hung up. -/
def Cap.anyHup (c : Cap) : Prop := c.out.hup = true ∨ c.err.hup = true

/-- Nothing to read any more. -/
def Cap.drained (c : Cap) : Prop := c.out.buf = [] ∧ c.err.buf = []

/-- What the parent knows at each place. -/
def Knows (c : Cap) : Prop :=
  match c.pc with
  | .poll => c.fail = 0
  | .read0 a b => c.fail = 0 ∧ (a = true → c.out.buf ≠ []) ∧ (b = true → c.err.buf ≠ []) ∧ (a = false → b = false → c.anyHup ∧ c.drained)
  | .read1 b hit => (b = true → c.err.buf ≠ []) ∧ (c.fail = 0 → hit = false → b = false → c.anyHup ∧ c.drained)
  | .done => c.fail = 0 → c.anyHup ∧ c.drained

theorem readCount_pos {len n : Nat} (h : len ≠ 0) : readCount len n ≠ 0 := by
  unfold readCount
  split
  · exact h
  · omega

/-- What `ReadPollFD` does when it has bytes to read. -/
theorem readPoll_cases (c : Cap) (w inn : Bool) (e : Errno) (n : Nat) (h : inn = true → (c.stream w).buf ≠ []) :
    (inn = false ∧ readPoll c w inn e n = (c, false)) ∨
    (inn = true ∧ e ≠ 0 ∧ (readPoll c w inn e n).2 = false ∧ (readPoll c w inn e n).1.fail ≠ 0) ∨
    (inn = true ∧ (readPoll c w inn e n).2 = true ∧ (readPoll c w inn e n).1.fail = c.fail) := by
  unfold readPoll
  cases inn with
  | false => exact .inl ⟨rfl, rfl⟩
  | true =>
    right
    rw [if_pos rfl]
    by_cases he : e = 0
    · right
      rw [if_neg (by simp [he])]
      refine ⟨rfl, ?_, Cap.set_fail _ _ _⟩
      have : (c.stream w).buf.length ≠ 0 := by
        intro hz; exact h rfl (List.length_eq_zero_iff.1 hz)
      simpa using readCount_pos this
    · left
      rw [if_pos he]
      refine ⟨rfl, he, rfl, ?_⟩
      dsimp only
      split <;> assumption

theorem readPoll_other (c : Cap) (w inn : Bool) (e : Errno) (n : Nat) (v : Bool) (h : v ≠ w) :
    ((readPoll c w inn e n).1).stream v = c.stream v := by
  unfold readPoll
  split
  · split
    · rfl
    · show (c.setStream w _).stream v = _
      rw [Cap.stream_set, if_neg h]
  · rfl

theorem readPoll_hup (c : Cap) (w inn : Bool) (e : Errno) (n : Nat) (v : Bool) :
    ((readPoll c w inn e n).1.stream v).hup = (c.stream v).hup := by
  by_cases h : v = w
  · subst h
    unfold readPoll
    split
    · split
      · rfl
      · show ((c.setStream v _).stream v).hup = _
        rw [Cap.stream_set, if_pos rfl]
    · rfl
  · rw [readPoll_other _ _ _ _ _ _ h]

theorem call_knows {c : Cap} (h : Knows c) (e : Errno) (n : Nat) : Knows (step c (.call e n)) := by
  unfold Knows at h
  rw [step]
  split at h
  · rename_i hp
    rw [hp]
    dsimp only
    unfold pollStep
    by_cases he : e = 0
    · rw [if_neg (by simp [he])]
      split
      · rename_i hs
        show c.fail = 0 ∧ _
        refine ⟨h, by simp, by simp, ?_⟩
        intro a b
        have a' : c.out.buf = [] := by simpa using a
        have b' : c.err.buf = [] := by simpa using b
        refine ⟨?_, a', b'⟩
        rcases hs with q | q | q | q
        · exact absurd a' q
        · exact absurd b' q
        · exact .inl q
        · exact .inr q
      · unfold Knows; rw [hp]; exact h
    · rw [if_pos he]
      split
      · unfold Knows; rw [hp]; exact h
      · show e = 0 → _
        exact fun hc => absurd hc he
  · rename_i a b hp
    rw [hp]
    dsimp only
    obtain ⟨h0, ha, hb, hd⟩ := h
    have hc := readPoll_cases c false a e n ha
    have ho : ((readPoll c false a e n).1).err = c.err := readPoll_other c false a e n true (by simp)
    show (b = true → ((readPoll c false a e n).1).err.buf ≠ []) ∧ (((readPoll c false a e n).1).fail = 0 →
      (readPoll c false a e n).2 = false → b = false → Cap.anyHup ((readPoll c false a e n).1) ∧ Cap.drained ((readPoll c false a e n).1))
    rw [ho]
    refine ⟨hb, ?_⟩
    intro hf h2 hb2
    rcases hc with ⟨ia, er⟩ | ⟨_, _, _, q⟩ | ⟨_, q, _⟩
    · rw [er]; exact hd ia hb2
    · exact absurd hf q
    · rw [h2] at q; cases q
  · rename_i b hit hp
    rw [hp]
    dsimp only
    obtain ⟨hb, hd⟩ := h
    have hc := readPoll_cases c true b e n hb
    unfold nextRound
    split
    · rename_i hx
      show ((readPoll c true b e n).1).fail = 0
      exact hx.2
    · rename_i hx
      show ((readPoll c true b e n).1).fail = 0 → _
      intro hf
      have hx' : (hit || (readPoll c true b e n).2) ≠ true := fun hc => hx ⟨hc, hf⟩
      rw [ne_eq, Bool.not_eq_true, Bool.or_eq_false_iff] at hx'
      rcases hc with ⟨ib, er⟩ | ⟨_, _, _, q⟩ | ⟨_, q, _⟩
      · rw [er] at hf ⊢
        exact hd hf hx'.1 ib
      · exact absurd hf q
      · rw [hx'.2] at q; cases q
  · rename_i hp
    rw [hp]
    unfold Knows
    dsimp only
    rw [hp]
    exact h

theorem hangup_knows {c : Cap} (h : Knows c) (w : Bool) : Knows (step c (.hangup w)) := by
  have e : step c (.hangup w) = c.setStream w { c.stream w with hup := true } := rfl
  rw [e]
  unfold Knows at h ⊢
  rw [Cap.set_pc]
  have hu : c.anyHup → (c.setStream w { c.stream w with hup := true }).anyHup := by
    intro h
    cases w
    · exact .inl rfl
    · exact .inr rfl
  have hd : c.drained → (c.setStream w { c.stream w with hup := true }).drained := by
    intro h
    cases w <;> exact h
  have ho : (c.setStream w { c.stream w with hup := true }).out.buf = c.out.buf := by cases w <;> rfl
  have he : (c.setStream w { c.stream w with hup := true }).err.buf = c.err.buf := by cases w <;> rfl
  rw [Cap.set_fail]
  split
  · rename_i hp; rw [hp] at h; exact h
  · rename_i hp; rw [hp] at h
    rw [ho, he]
    exact ⟨h.1, h.2.1, h.2.2.1, fun a b => ⟨hu (h.2.2.2 a b).1, hd (h.2.2.2 a b).2⟩⟩
  · rename_i hp; rw [hp] at h
    rw [he]
    exact ⟨h.1, fun a b d => ⟨hu (h.2 a b d).1, hd (h.2 a b d).2⟩⟩
  · rename_i hp; rw [hp] at h
    exact fun a => ⟨hu (h a).1, hd (h a).2⟩

theorem write_knows {c : Cap} (h : Knows c) (hn : ¬ c.anyHup) (w : Bool) (bs : List UInt8) : Knows (step c (.write w bs)) := by
  rw [step]
  split
  · exact h
  · unfold Knows at h ⊢
    rw [Cap.set_pc, Cap.set_fail]
    have ho : c.out.buf ≠ [] → (c.setStream w { c.stream w with buf := (c.stream w).buf ++ bs, sent := (c.stream w).sent ++ bs }).out.buf ≠ [] := by
      intro h
      cases w
      · show c.out.buf ++ bs ≠ []
        simp [h]
      · exact h
    have he : c.err.buf ≠ [] → (c.setStream w { c.stream w with buf := (c.stream w).buf ++ bs, sent := (c.stream w).sent ++ bs }).err.buf ≠ [] := by
      intro h
      cases w
      · exact h
      · show c.err.buf ++ bs ≠ []
        simp [h]
    split
    · rename_i hp; rw [hp] at h; exact h
    · rename_i hp; rw [hp] at h
      exact ⟨h.1, fun a => ho (h.2.1 a), fun a => he (h.2.2.1 a), fun a b => absurd (h.2.2.2 a b).1 hn⟩
    · rename_i hp; rw [hp] at h
      exact ⟨fun a => he (h.1 a), fun a b d => absurd (h.2 a b d).1 hn⟩
    · rename_i hp; rw [hp] at h
      exact fun a => absurd (h a).1 hn

theorem anyHup_step (c : Cap) (e : Event) (h : ¬ c.anyHup) (he : ∀ w, e ≠ .hangup w) : ¬ (step c e).anyHup := by
  have key : ∀ c' : Cap, (∀ v, (c'.stream v).hup = (c.stream v).hup) → ¬ c'.anyHup := by
    intro c' hs hc
    apply h
    rcases hc with q | q
    · left; have := hs false; exact this.symm.trans q
    · right; have := hs true; exact this.symm.trans q
  cases e with
  | hangup w => exact absurd rfl (he w)
  | write w bs =>
    apply key
    intro v
    rw [step]
    split
    · rfl
    · rw [Cap.stream_set]
      split
      · rename_i e; subst e; rfl
      · rfl
  | call e n =>
    apply key
    intro v
    rw [step]
    split
    · unfold pollStep
      split
      · split <;> rfl
      · split <;> rfl
    · exact readPoll_hup c false _ e n v
    · dsimp only
      unfold nextRound
      split <;> exact readPoll_hup c true _ e n v
    · rfl

theorem run_knows : ∀ (es : List Event) (c : Cap), Knows c → Together es → (c.anyHup → ∀ w bs, .write w bs ∉ es) →
    Knows (es.foldl step c)
  | [], _, h, _, _ => h
  | e :: es, c, h, ht, hw => by
    rw [List.foldl_cons]
    have hw' : c.anyHup → ∀ w bs, .write w bs ∉ es := fun ha w bs hm => hw ha w bs (by simp [hm])
    cases e with
    | hangup w => exact run_knows es _ (hangup_knows h w) ht.2 (fun _ => ht.1)
    | write w bs =>
      have hn : ¬ c.anyHup := fun ha => hw ha w bs (by simp)
      refine run_knows es _ (write_knows h hn w bs) ht ?_
      exact fun ha => absurd ha (anyHup_step c _ hn (by simp))
    | call e n =>
      refine run_knows es _ (call_knows h e n) ht ?_
      intro ha
      by_cases hn : c.anyHup
      · exact hw' hn
      · exact absurd ha (anyHup_step c _ hn (by simp))

/-- **C89** (partial: only for children that keep both streams open as long as they write to either) When the loop ends
without an error, all that the child ever wrote has been captured. -/
theorem captures_all_partial (es : List Event) (ht : Together es) (hd : (play es).pc = .done) (hf : (play es).fail = 0)
    (which : Bool) : (play es).got which = ((play es).stream which).sent := by
  have hk : Knows (play es) := run_knows es {} rfl ht (fun ha => by rcases ha with h | h <;> cases h)
  unfold Knows at hk
  rw [hd] at hk
  obtain ⟨_, d1, d2⟩ := hk hf
  have hp := captured_is_prefix es which
  have hb : ((play es).stream which).buf = [] := by cases which; exact d1; exact d2
  rw [hb, List.append_nil] at hp
  exact hp

/-- A child that writes to both streams and exits. -/
def wellBehaved : List Event :=
  [.write false [104, 105], .call 0 0, .call 0 1, .write true [33], .call 0 0, .call 0 0, .call 0 0, .call 0 0,
   .hangup false, .hangup true, .call 0 0, .call 0 0, .call 0 0]

example : Together wellBehaved ∧ (play wellBehaved).pc = .done ∧ (play wellBehaved).fail = 0 ∧
    (play wellBehaved).got false = [104, 105] ∧ (play wellBehaved).got true = [33] := by
  refine ⟨?_, by decide, by decide, by decide, by decide⟩
  simp [wellBehaved, Together]

/-- **C89** (a fault of the code) A child that closes its standard output and then writes to its standard error: the first
`poll` reports the end of one stream, nothing can be read, the loop ends without an error, and what the child writes later
is lost. -/
theorem closing_one_stream_loses_the_other :
    let c := play [.hangup false, .call 0 0, .call 0 0, .call 0 0, .write true [120]]
    c.pc = .done ∧ c.fail = 0 ∧ c.err.sent = [120] ∧ c.got true = [] := by decide

/-- The rounds are paid for by bytes. -/
def Paid (c : Cap) : Prop :=
  match c.pc with
  | .poll => c.polls ≤ c.log.length
  | .read0 a b => c.polls ≤ c.log.length + 1 ∧ (a = true → c.out.buf ≠ []) ∧ (b = true → c.err.buf ≠ [])
  | .read1 b hit => c.polls ≤ c.log.length + (if hit then 0 else 1) ∧ (b = true → c.err.buf ≠ [])
  | .done => c.polls ≤ c.log.length + 1

theorem readPoll_log (c : Cap) (w inn : Bool) (e : Errno) (n : Nat) (h : inn = true → (c.stream w).buf ≠ []) :
    c.log.length + (if (readPoll c w inn e n).2 then 1 else 0) ≤ (readPoll c w inn e n).1.log.length ∧
    (readPoll c w inn e n).1.polls = c.polls := by
  cases inn with
  | false => simp [readPoll]
  | true =>
    by_cases he : e = 0
    · subst he
      have er : readPoll c w true 0 n = ({ c.setStream w { c.stream w with buf := (c.stream w).buf.drop (readCount (c.stream w).buf.length n) } with
          log := c.log ++ ((c.stream w).buf.take (readCount (c.stream w).buf.length n)).map fun b => (w, b) },
          readCount (c.stream w).buf.length n != 0) := rfl
      rw [er]
      refine ⟨?_, Cap.set_polls _ _ _⟩
      have hl : (c.stream w).buf.length ≠ 0 := by
        intro hz; exact h rfl (List.length_eq_zero_iff.1 hz)
      have hp := readCount_pos (n := n) hl
      dsimp only
      rw [List.length_append, List.length_map, List.length_take]
      have : (readCount (c.stream w).buf.length n != 0) = true := by simpa using hp
      rw [this, if_pos rfl]
      omega
    · simp [readPoll, he]

theorem step_paid {c : Cap} (h : Paid c) (e : Event) : Paid (step c e) := by
  cases e with
  | hangup w =>
    have ee : step c (.hangup w) = c.setStream w { c.stream w with hup := true } := rfl
    rw [ee]
    unfold Paid at h ⊢
    rw [Cap.set_pc, Cap.set_polls, Cap.set_log]
    have ho : (c.setStream w { c.stream w with hup := true }).out.buf = c.out.buf := by cases w <;> rfl
    have he : (c.setStream w { c.stream w with hup := true }).err.buf = c.err.buf := by cases w <;> rfl
    rw [ho, he]
    exact h
  | write w bs =>
    rw [step]
    split
    · exact h
    · unfold Paid at h ⊢
      rw [Cap.set_pc, Cap.set_polls, Cap.set_log]
      have ho : c.out.buf ≠ [] → (c.setStream w { c.stream w with buf := (c.stream w).buf ++ bs, sent := (c.stream w).sent ++ bs }).out.buf ≠ [] := by
        intro h
        cases w
        · show c.out.buf ++ bs ≠ []
          simp [h]
        · exact h
      have he : c.err.buf ≠ [] → (c.setStream w { c.stream w with buf := (c.stream w).buf ++ bs, sent := (c.stream w).sent ++ bs }).err.buf ≠ [] := by
        intro h
        cases w
        · exact h
        · show c.err.buf ++ bs ≠ []
          simp [h]
      split
      · rename_i hp; rw [hp] at h; exact h
      · rename_i hp; rw [hp] at h; exact ⟨h.1, fun a => ho (h.2.1 a), fun a => he (h.2.2 a)⟩
      · rename_i hp; rw [hp] at h; exact ⟨h.1, fun a => he (h.2 a)⟩
      · rename_i hp; rw [hp] at h; exact h
  | call e n =>
    unfold Paid at h
    rw [step]
    split at h
    · rename_i hp
      rw [hp]
      dsimp only
      unfold pollStep
      split
      · split
        · unfold Paid; rw [hp]; exact h
        · show c.polls ≤ c.log.length + 1
          omega
      · split
        · show c.polls + 1 ≤ c.log.length + 1 ∧ _
          exact ⟨by omega, by simp, by simp⟩
        · unfold Paid; rw [hp]; exact h
    · rename_i a b hp
      rw [hp]
      dsimp only
      obtain ⟨l1, l2⟩ := readPoll_log c false a e n h.2.1
      have ho : ((readPoll c false a e n).1).err = c.err := readPoll_other c false a e n true (by simp)
      show (readPoll c false a e n).1.polls ≤ (readPoll c false a e n).1.log.length +
        (if (readPoll c false a e n).2 then 0 else 1) ∧ (b = true → ((readPoll c false a e n).1).err.buf ≠ [])
      rw [ho, l2]
      refine ⟨?_, h.2.2⟩
      have h1 := h.1
      cases hr : (readPoll c false a e n).2
      · rw [hr] at l1; simp at l1 ⊢; omega
      · rw [hr] at l1; simp at l1 ⊢; omega
    · rename_i b hit hp
      rw [hp]
      dsimp only
      obtain ⟨l1, l2⟩ := readPoll_log c true b e n h.2
      have h1 := h.1
      unfold nextRound
      split
      · rename_i hx
        show (readPoll c true b e n).1.polls ≤ (readPoll c true b e n).1.log.length
        rw [l2]
        cases hit <;> cases hr : (readPoll c true b e n).2 <;> simp_all <;> omega
      · show (readPoll c true b e n).1.polls ≤ (readPoll c true b e n).1.log.length + 1
        rw [l2]
        cases hit <;> cases hr : (readPoll c true b e n).2 <;> simp_all <;> omega
    · rename_i hp
      rw [hp]
      unfold Paid
      dsimp only
      rw [hp]
      exact h

/-- **C89** The loop never spins: every round but the last captures at least one byte. -/
theorem rounds_bounded (es : List Event) : (play es).polls ≤ (play es).log.length + 1 := by
  have key : ∀ (es : List Event) (c : Cap), Paid c → Paid (es.foldl step c) := by
    intro es
    induction es with
    | nil => intro c h; exact h
    | cons e es ih => intro c h; exact ih _ (step_paid h e)
  have h : Paid (play es) := key es {} (Nat.le_refl _)
  unfold Paid at h
  split at h
  · omega
  · exact h.1
  · have := h.1
    split at this <;> omega
  · exact h

end Verif.Spawn
