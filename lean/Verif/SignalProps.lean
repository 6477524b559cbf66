import Verif.Signal
/-! # Signals: what was blocked is let through again, and nothing else -/
namespace Verif.Signal

/-- the signals the program's masks have room for -/
def Low (l : List Nat) : Prop := ∀ s ∈ l, 1 ≤ s ∧ s < 32

theorem getLsbD_bit (s i : Nat) (hs : s < 32) (hi : i < 32) : (bit s).getLsbD i = decide (i = s) := by
  unfold bit
  rw [Nat.mod_eq_of_lt hs, BitVec.getLsbD_shiftLeft]
  by_cases h : i = s
  · subst h; simp [hi]
  · by_cases h' : i < s
    · simp [h, h', hi]
    · have : i - s ≠ 0 := by omega
      simp [h, this, hi, BitVec.getLsbD_one]

theorem has_bit (b : BitVec 32) (i : Nat) (hi : i < 32) : (b &&& bit i) ≠ 0#32 ↔ b.getLsbD i = true := by
  constructor
  · intro h
    cases hb : b.getLsbD i with
    | true => rfl
    | false =>
      exfalso
      apply h
      apply BitVec.eq_of_getLsbD_eq
      intro j hj
      rw [BitVec.getLsbD_and, getLsbD_bit i j hi hj]
      by_cases hji : j = i
      · subst hji; simp [hb]
      · simp [hji]
  · intro h h0
    have := congrArg (fun x => BitVec.getLsbD x i) h0
    simp only [BitVec.getLsbD_and, getLsbD_bit i i hi hi, h, decide_true, Bool.and_true] at this
    simp at this

/-- **What was asked for** is recorded -/
theorem requested_bits (y : Sys) (l : List Nat) (w : World) (hl : Low l) (h : y.sigmask = 0) (s : Nat) (hs : s < 32) :
    (block y l w).1.requested.getLsbD s = true ↔ s ∈ l := by
  have key : ∀ (l : List Nat) (r : BitVec 32), Low l → ((l.foldl (fun r s => r ||| bit s) r).getLsbD s = true ↔ r.getLsbD s = true ∨ s ∈ l) := by
    intro l
    induction l with
    | nil => intro r _; simp
    | cons x l ih =>
      intro r hl
      rw [List.foldl_cons, ih _ (fun s hs => hl s (by simp [hs])), BitVec.getLsbD_or, getLsbD_bit x s (hl x (by simp)).2 hs]
      simp [or_assoc]
  have : (block y l w).1.requested = l.foldl (fun r s => r ||| bit s) 0#32 := by
    unfold block
    simp only [h, ne_eq, not_true_eq_false, if_false]
    cases y.signalfd <;> rfl
  rw [this, key l _ hl]
  simp

theorem actual_bits (old : Mask) (s : Nat) (hs : s < 32) : ∀ (l : List Nat) (a : BitVec 32 × Nat), Low l →
    ((actual old l a).1.getLsbD s = true ↔ a.1.getLsbD s = true ∨ (s ∈ l ∧ old s = false)) ∧ (actual old l a).2 = a.2 := by
  intro l
  induction l with
  | nil => intro a _; simp [actual]
  | cons x l ih =>
    intro a hl
    have hv : valid x = true := by have := hl x (by simp); unfold valid; simp; omega
    have ih := fun a => ih a (fun s hs => hl s (by simp [hs]))
    unfold actual at ih ⊢
    rw [List.foldl_cons]
    by_cases hx : old x = true
    · have e : (if ¬ valid x = true then (a.1, EINVAL) else if old x = true then a else (a.1 ||| bit x, a.2)) = a := by simp [hv, hx]
      rw [e]
      refine ⟨?_, (ih a).2⟩
      rw [(ih a).1, List.mem_cons]
      constructor
      · rintro (h | ⟨h, h'⟩); exact .inl h; exact .inr ⟨.inr h, h'⟩
      · rintro (h | ⟨rfl | h, h'⟩); exact .inl h; rw [hx] at h'; cases h'; exact .inr ⟨h, h'⟩
    · have hx' : old x = false := by simpa using hx
      have e : (if ¬ valid x = true then (a.1, EINVAL) else if old x = true then a else (a.1 ||| bit x, a.2)) = (a.1 ||| bit x, a.2) := by simp [hv, hx']
      rw [e]
      refine ⟨?_, (ih _).2⟩
      rw [(ih _).1, List.mem_cons, BitVec.getLsbD_or, getLsbD_bit x s (hl x (by simp)).2 hs]
      simp only [Bool.or_eq_true, decide_eq_true_eq]
      constructor
      · rintro ((h | rfl) | ⟨h, h'⟩); exact .inl h; exact .inr ⟨.inl rfl, hx'⟩; exact .inr ⟨.inr h, h'⟩
      · rintro (h | ⟨rfl | h, h'⟩); exact .inl (.inl h); exact .inl (.inr rfl); exact .inr ⟨h, h'⟩

/-- **What was blocked** is recorded: what was asked for and was not blocked before -/
theorem actually_bits (y : Sys) (l : List Nat) (w : World) (hl : Low l) (h : y.sigmask = 0) (s : Nat) (hs : s < 32) :
    (block y l w).1.actually.getLsbD s = true ↔ s ∈ l ∧ w.mask s = false := by
  have : (block y l w).1.actually = (actual w.mask l (0#32, 0)).1 := by
    unfold block
    simp only [h, ne_eq, not_true_eq_false, if_false]
    cases y.signalfd <;> rfl
  rw [this, (actual_bits w.mask s hs l _ hl).1]
  simp

/-- **Blocked is what was and what is asked for**, but KILL and STOP; also if there is then no descriptor for it. -/
theorem blocks (y : Sys) (l : List Nat) (w : World) (hl : Low l) (h : y.sigmask = 0) (s : Nat) :
    (block y l w).2.2.mask s = true ↔ w.mask s = true ∨ (s ∈ l ∧ s ≠ SIGKILL ∧ s ≠ SIGSTOP) := by
  have : (block y l w).2.2.mask = sigBlock w.mask (setOf l) := by
    unfold block
    simp only [h, ne_eq, not_true_eq_false, if_false]
    cases y.signalfd <;> rfl
  rw [this]
  unfold sigBlock setOf
  have hv : s ∈ l → valid s = true := by intro h; have := hl s h; unfold valid; simp; omega
  simp only [Bool.or_eq_true, Bool.and_eq_true, decide_eq_true_eq, ne_eq, and_assoc]
  exact or_congr_right ⟨fun h => ⟨h.2.1, h.2.2⟩, fun h => ⟨hv h.1, h⟩⟩

/-- **The errors**: the system's, or 0 -/
theorem block_err (y : Sys) (l : List Nat) (w : World) (hl : Low l) :
    (block y l w).2.1 = if y.sigmask ≠ 0 then y.sigmask else match y.signalfd with | .error e => e | .ok _ => 0 := by
  unfold block
  by_cases h : y.sigmask = 0
  · rw [if_neg (fun hh => hh h), if_neg (fun hh => hh h)]
    cases y.signalfd with
    | error e => rfl
    | ok fd => exact (actual_bits w.mask 0 (by decide) l _ hl).2
  · rw [if_pos h, if_pos h]

/-- **When the system refuses**, nothing is blocked, and `unblock` has nothing to do. -/
theorem refused (y : Sys) (l : List Nat) (w : World) (h : y.sigmask ≠ 0) (ec : Nat) :
    (block y l w).2.2 = w ∧ (unblock 0 ec (block y l w).1 w) = (0, w) := by
  have e : block y l w = (⟨0, 0, 0⟩, y.sigmask, w) := by unfold block; rw [if_pos h]
  rw [e]
  refine ⟨rfl, ?_⟩
  have hs : (List.range 32).filter (fun i => ((0 : BitVec 32) &&& bit i) ≠ 0#32) = [] := by decide
  unfold unblock
  simp only [hs, ne_eq, not_true_eq_false, if_false]
  have : sigUnblock w.mask (setOf []) = w.mask := by funext s; simp [sigUnblock, setOf]
  rw [this]

/-- what is let through again: exactly what is recorded -/
theorem unblock_mask (ec : Nat) (b : Blocked) (w : World) (s : Nat) :
    (unblock 0 ec b w).2.mask s = (w.mask s && !(decide (1 ≤ s ∧ s < 32) && b.actually.getLsbD s)) := by
  have hm : (unblock 0 ec b w).2.mask = sigUnblock w.mask (setOf ((List.range 32).filter fun i => (b.actually &&& bit i) ≠ 0#32)) := by
    unfold unblock
    simp only [ne_eq, not_true_eq_false, if_false]
    split <;> rfl
  rw [hm]
  unfold sigUnblock setOf
  congr 2
  rw [Bool.eq_iff_iff]
  simp only [decide_eq_true_eq, Bool.and_eq_true, List.mem_filter, List.mem_range, valid]
  constructor
  · rintro ⟨h1, h2, h3⟩; exact ⟨⟨h1.1, h2⟩, (has_bit _ _ h2).1 h3⟩
  · rintro ⟨⟨h1, h2⟩, h3⟩; exact ⟨⟨h1, by omega⟩, h2, (has_bit _ _ h2).2 h3⟩

/-- a mask as the system keeps it: KILL and STOP are never blocked -/
def Sane (m : Mask) : Prop := m SIGKILL = false ∧ m SIGSTOP = false

/-- **`unblock` undoes `block`**: whatever was done between — as long as it left the signals as it found them — the mask is what it
was before, also if something asked for was blocked already. -/
theorem undone (y : Sys) (l : List Nat) (w v : World) (hl : Low l) (ec : Nat)
    (hv : v.mask = (block y l w).2.2.mask) (h : y.sigmask = 0) : (unblock 0 ec (block y l w).1 v).2.mask = w.mask := by
  funext s
  rw [unblock_mask, hv]
  have hb := blocks y l w hl h s
  by_cases hs : 1 ≤ s ∧ s < 32
  · have ha := actually_bits y l w hl h s hs.2
    rw [Bool.eq_iff_iff, Bool.and_eq_true, hb]
    simp only [hs, and_self, decide_true, Bool.true_and, Bool.not_eq_true']
    rw [← Bool.not_eq_true, ha]
    constructor
    · rintro ⟨h1, h2⟩
      rcases h1 with h1 | h1
      · exact h1
      · cases hm : w.mask s with
        | true => rfl
        | false => exact absurd ⟨h1.1, hm⟩ h2
    · intro h; exact ⟨.inl h, fun h' => by rw [h] at h'; cases h'.2⟩
  · have hn : s ∉ l := fun hh => hs (hl s hh)
    rw [Bool.eq_iff_iff, Bool.and_eq_true, hb]
    simp [hs, hn]

/-- **and the descriptor is closed** that was opened for it (unless that is 0) -/
theorem undone_fds (y : Sys) (l : List Nat) (w : World) (ec fd : Nat) (h : y.sigmask = 0) (hf : y.signalfd = .ok fd) (h0 : fd ≠ 0) :
    fd ∈ (block y l w).2.2.fds ∧ (unblock 0 ec (block y l w).1 (block y l w).2.2).2.fds = w.fds := by
  have e : (block y l w).2.2.fds = fd :: w.fds ∧ (block y l w).1.fd = fd := by
    unfold block
    simp only [h, hf, ne_eq, not_true_eq_false, if_false, and_self]
  refine ⟨by rw [e.1]; simp, ?_⟩
  unfold unblock
  simp only [e.2, ne_eq, h0, not_false_iff, if_true, not_true_eq_false, if_false, close, e.1, List.erase_cons_head]

/-- what `unblock` answers: closing's error; if there is nothing to close, that of letting through -/
theorem unblock_answer (ey ec : Nat) (b : Blocked) (w : World) : (unblock ey ec b w).1 = if b.fd = 0 then ey else ec := by
  unfold unblock
  by_cases h : b.fd = 0
  · simp only [h, ne_eq, not_true_eq_false, if_false, if_true]
  · simp only [h, ne_eq, not_false_iff, if_true, if_false, close]

/-! ### one inside the other -/

/-- event loops within event loops: the signals each blocks, what the system answers, and those inside -/
inductive Nest where
  | done
  | within (y : Sys) (l : List Nat) (ec : Nat) (inner : Nest) (next : Nest)

def Nest.Ok : Nest → Prop
  | .done => True
  | .within y l _ i n => y.sigmask = 0 ∧ Low l ∧ i.Ok ∧ n.Ok

def Nest.run : Nest → World → World
  | .done, w => w
  | .within y l ec i n, w =>
    let b := block y l w
    n.run (unblock 0 ec b.1 (i.run b.2.2)).2

theorem sane_block (y : Sys) (l : List Nat) (w : World) (hl : Low l) (h : y.sigmask = 0) (hw : Sane w.mask) : Sane (block y l w).2.2.mask := by
  constructor
  · rw [← Bool.not_eq_true, blocks y l w hl h]; rintro (h | h); rw [hw.1] at h; cases h; exact h.2.1 rfl
  · rw [← Bool.not_eq_true, blocks y l w hl h]; rintro (h | h); rw [hw.2] at h; cases h; exact h.2.2 rfl

/-- **However loops are nested**, the signals are as before -/
theorem nested (n : Nest) : ∀ w : World, n.Ok → Sane w.mask → (n.run w).mask = w.mask := by
  induction n with
  | done => intro w _ _; rfl
  | within y l ec i n hi hn =>
    intro w ok hw
    obtain ⟨h1, h2, h3, h4⟩ := ok
    have e := undone y l w (i.run (block y l w).2.2) h2 ec (hi _ h3 (sane_block y l w h2 h1 hw)) h1
    have := hn (unblock 0 ec (block y l w).1 (i.run (block y l w).2.2)).2 h4 (by rw [e]; exact hw)
    rw [e] at this
    exact this

/-! ## What is not so -/

def ok5 : Sys := ⟨0, .ok 5⟩
def none' : World := ⟨fun _ => false, []⟩

/-- `undone` and `nested` apply: what was blocked before stays blocked -/
example : let w : World := ⟨fun s => s = 2, []⟩
    (Nest.run (.within ok5 [1, 2, 15] 0 (.within ok5 [15, 3] 0 .done .done) .done) w).mask = w.mask :=
  nested _ _ ⟨rfl, by unfold Low; decide, ⟨rfl, by unfold Low; decide, trivial, trivial⟩, trivial⟩ ⟨by decide, by decide⟩

/-- **Not one inside the other**: what the first blocked is let through when it ends, though the second asked for it and goes on -/
theorem out_of_order_partial : let a := block ok5 [1, 15] none'
    let b := block ok5 [15] a.2.2
    a.2.2.mask 15 = true ∧ b.2.2.mask 15 = true ∧ b.1.requested.getLsbD 15 = true ∧ (unblock 0 0 a.1 b.2.2).2.mask 15 = false := by decide

/-- **A signal from 32 on** has no place in the masks: it stays blocked, and `unblock` lets another through -/
theorem high_partial : let w : World := ⟨fun s => s = 2, []⟩
    let a := block ok5 [34] w
    (unblock 0 0 a.1 a.2.2).2.mask 34 = true ∧ (unblock 0 0 a.1 a.2.2).2.mask 2 = false ∧ a.2.1 = 0 := by decide

/-- **A descriptor numbered 0** (the standard input closed) is not closed again -/
theorem fd_zero_partial (l : List Nat) (w : World) (ec : Nat) :
    (unblock 0 ec (block ⟨0, .ok 0⟩ l w).1 (block ⟨0, .ok 0⟩ l w).2.2).2.fds = 0 :: w.fds := rfl

/-- **An error of letting through** is lost when closing goes well: the signals stay blocked, and the answer is 0 -/
theorem unblock_err_partial (ey : Nat) (b : Blocked) (w : World) (h : ey ≠ 0) (hb : b.fd ≠ 0) :
    (unblock ey 0 b w).1 = 0 ∧ (unblock ey 0 b w).2.mask = w.mask := by
  unfold unblock
  simp only [h, hb, ne_eq, not_false_iff, if_true, close, and_self]

end Verif.Signal
