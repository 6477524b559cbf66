import Verif.TreiberProps
import Mathlib.Tactic.SplitIfs
/-!
# C34, continued: the tagged word, and the ABA problem when tags wrap
-/
namespace Verif.Treiber

/-! ## The tagged word -/

/-- What push's assertions ask of a node's address (include/lockfree/stack.hpp:40,77): 48 bits, aligned to 2^a. -/
structure ValidPtr (a ptr : Nat) : Prop where
  low : ptr % 2 ^ a = 0
  high : ptr < 2 ^ 48

theorem tag_eq (a : Nat) (ha : a ≤ 48) (ptr id : Nat) (h : ValidPtr a ptr) :
    tag a ptr id = ((id + 1) % 2 ^ (16 + a)) * 2 ^ (48 - a) + ptr / 2 ^ a := by
  unfold tag two64
  have e64 : (2 : Nat) ^ 64 = 2 ^ (16 + a) * 2 ^ (48 - a) := by rw [← Nat.pow_add]; congr 1; omega
  have e1 : (((id + 1) % 2 ^ 64) <<< (48 - a)) % 2 ^ 64 = ((id + 1) % 2 ^ (16 + a)) <<< (48 - a) := by
    rw [Nat.shiftLeft_eq, Nat.shiftLeft_eq, e64, Nat.mul_mod_mul_right]
    congr 1
    exact Nat.mod_mod_of_dvd _ ⟨2 ^ (48 - a), rfl⟩
  rw [e1, Nat.shiftRight_eq_div_pow, Nat.or_comm]
  have hq : ptr / 2 ^ a < 2 ^ (48 - a) := by
    rw [Nat.div_lt_iff_lt_mul (Nat.two_pow_pos a), ← Nat.pow_add]
    have : 48 - a + a = 48 := by omega
    rw [this]; exact h.high
  rw [← Nat.shiftLeft_add_eq_or_of_lt hq, Nat.shiftLeft_eq]

theorem ptr_back (a ptr : Nat) (h : ValidPtr a ptr) : ptr / 2 ^ a * 2 ^ a = ptr :=
  Nat.div_mul_cancel (Nat.dvd_of_mod_eq_zero h.low)

/-- **C34** The pointer survives tagging (the assertion in push, include/lockfree/stack.hpp:77, never fires). -/
theorem untag_tag (a : Nat) (ha : a ≤ 48) (ptr id : Nat) (h : ValidPtr a ptr) : untag a (tag a ptr id) = ptr := by
  unfold untag ptr48 two64
  rw [Nat.and_two_pow_sub_one_eq_mod, Nat.shiftLeft_eq, tag_eq a ha ptr id h,
    Nat.mod_mod_of_dvd _ (Nat.pow_dvd_pow 2 (by omega : 48 ≤ 64)), Nat.add_mul, ptr_back a ptr h, Nat.mul_assoc, ← Nat.pow_add]
  have : 48 - a + a = 48 := by omega
  rw [this, Nat.mul_comm, Nat.mul_add_mod, Nat.mod_eq_of_lt h.high]

/-- **C34** The tag counts modulo 2^(16 + ALIGN_BITS): 2^19 for the task stack. -/
theorem tagof_tag (a : Nat) (ha : a ≤ 48) (ptr id : Nat) (h : ValidPtr a ptr) :
    tagof a (tag a ptr id) = (id + 1) % 2 ^ (16 + a) := by
  unfold tagof
  rw [tag_eq a ha ptr id h, Nat.shiftRight_eq_div_pow]
  have hq : ptr / 2 ^ a < 2 ^ (48 - a) := by
    rw [Nat.div_lt_iff_lt_mul (Nat.two_pow_pos a), ← Nat.pow_add]
    have : 48 - a + a = 48 := by omega
    rw [this]; exact h.high
  rw [Nat.mul_comm, Nat.mul_add_div (Nat.two_pow_pos _), Nat.div_eq_of_lt hq, Nat.add_zero]

/-- The word fits 64 bits. -/
theorem tag_lt (a : Nat) (ha : a ≤ 48) (ptr id : Nat) (h : ValidPtr a ptr) : tag a ptr id < 2 ^ 64 := by
  rw [tag_eq a ha ptr id h]
  have hq : ptr / 2 ^ a < 2 ^ (48 - a) := by
    rw [Nat.div_lt_iff_lt_mul (Nat.two_pow_pos a), ← Nat.pow_add]
    have : 48 - a + a = 48 := by omega
    rw [this]; exact h.high
  have e64 : (2 : Nat) ^ 64 = 2 ^ (16 + a) * 2 ^ (48 - a) := by rw [← Nat.pow_add]; congr 1; omega
  have hc : (id + 1) % 2 ^ (16 + a) + 1 ≤ 2 ^ (16 + a) := Nat.mod_lt _ (Nat.two_pow_pos _)
  calc _ < ((id + 1) % 2 ^ (16 + a)) * 2 ^ (48 - a) + 2 ^ (48 - a) := by omega
    _ = ((id + 1) % 2 ^ (16 + a) + 1) * 2 ^ (48 - a) := by rw [Nat.add_mul, Nat.one_mul]
    _ ≤ _ := by rw [e64]; exact Nat.mul_le_mul_right _ hc

/-- The word kept in `head` after the `cnt`-th change: tags are made from the tag before by adding one. -/
def word (a : Nat) (h : Head) : Nat := tag a h.ptr (h.cnt + 2 ^ (16 + a) - 1)

/-- **C34** Comparing words compares pointers, and counts modulo 2^(16 + ALIGN_BITS): the model's `same`. -/
theorem word_eq_iff (a : Nat) (ha : a ≤ 48) (h k : Head) (hv : ValidPtr a h.ptr) (kv : ValidPtr a k.ptr) :
    word a h = word a k ↔ same (2 ^ (16 + a)) h k := by
  have hp := Nat.two_pow_pos (16 + a)
  have e : ∀ c : Nat, (c + 2 ^ (16 + a) - 1 + 1) % 2 ^ (16 + a) = c % 2 ^ (16 + a) := by
    intro c
    have : c + 2 ^ (16 + a) - 1 + 1 = c + 2 ^ (16 + a) := by omega
    rw [this, Nat.add_mod_right]
  constructor
  · intro hw
    unfold word at hw
    have h1 := congrArg (untag a) hw
    have h2 := congrArg (tagof a) hw
    rw [untag_tag a ha _ _ hv, untag_tag a ha _ _ kv] at h1
    rw [tagof_tag a ha _ _ hv, tagof_tag a ha _ _ kv, e, e] at h2
    exact ⟨h1, h2⟩
  · rintro ⟨h1, h2⟩
    unfold word
    rw [tag_eq a ha _ _ hv, tag_eq a ha _ _ kv, e, e, h2, h1]

/-- What the compare-exchange stores is the word of the next count. -/
theorem word_succ (a : Nat) (ha : a ≤ 48) (h : Head) (p : Addr) (hv : ValidPtr a h.ptr) (pv : ValidPtr a p) :
    tag a p (tagof a (word a h)) = word a ⟨p, h.cnt + 1⟩ := by
  have hp := Nat.two_pow_pos (16 + a)
  unfold word
  rw [tagof_tag a ha _ _ hv, tag_eq a ha _ _ pv, tag_eq a ha _ _ pv]
  congr 2
  have e1 : h.cnt + 2 ^ (16 + a) - 1 + 1 = h.cnt + 2 ^ (16 + a) := by omega
  have e2 : h.cnt + 1 + 2 ^ (16 + a) - 1 + 1 = h.cnt + 1 + 2 ^ (16 + a) := by omega
  dsimp only
  rw [e1, e2, Nat.add_mod_right, Nat.add_mod_right, Nat.mod_add_mod]

example : untag 3 (tag 3 0x7fffdeadbee8 5) = 0x7fffdeadbee8 ∧ tagof 3 (tag 3 0x7fffdeadbee8 5) = 6 := by decide

/-! ## ABA -/

theorem upd_upd {β : Type} (f : Nat → β) (i : Nat) (b c : β) : upd (upd f i b) i c = upd f i c := by
  funext x; unfold upd; split <;> rfl

theorem upd_back {β : Type} (f : Nat → β) (i : Nat) (b : β) (h : f i = b) : upd f i b = f := by rw [← h]; exact upd_self f i

section
variable {M : Nat} {o : Thread → Set Addr} {es : List Event} {s : State}

/-- A whole call of try_pop without interference. -/
theorem popOp (x : Exec M o false es s) (t : Thread) (ht : s.th t = .idle) (h0 : s.head.ptr ≠ 0) :
    ∃ es', Exec M o false es' ⟨⟨s.next s.head.ptr, s.head.cnt + 1⟩, s.next, s.th,
      upd s.owns t {y | y ∈ s.owns t ∨ some s.head.ptr = some y}⟩ := by
  have nf : ∀ s : State, false = true → Fresh M s := by simp
  have x1 := x.step (nf _) (Step.callPop s t ht)
  have x2 := x1.step (nf _) (Step.popLoad _ t (by simp [upd]))
  have x3 := x2.step (nf _) (Step.popNext _ t s.head (by simp [upd]) h0)
  have x4 := x3.step (nf _) (Step.popCasOk _ t s.head _ (by simp [upd]; rfl) ⟨rfl, rfl⟩)
  have x5 := x4.step (nf _) (Step.retPop _ t _ (by simp [upd]; rfl))
  simp only [upd_upd] at x5
  rw [upd_back s.th t .idle ht] at x5
  exact ⟨_, x5⟩

/-- A whole call of push with one node, without interference. -/
theorem pushOp (x : Exec M o false es s) (t : Thread) (n : Addr) (ht : s.th t = .idle) (h0 : n ≠ 0) (ho : n ∈ s.owns t) :
    ∃ es', Exec M o false es' ⟨⟨n, s.head.cnt + 1⟩, upd s.next n s.head.ptr, s.th,
      upd s.owns t {y | y ∈ s.owns t ∧ y ∉ [n]}⟩ := by
  have nf : ∀ s : State, false = true → Fresh M s := by simp
  have x1 := x.step (nf _) (Step.callPush s t [n] ht (by simp) (by simpa using fun h => h0 h.symm) (by simp)
    (by simpa using ho) trivial)
  have x2 := x1.step (nf _) (Step.pushLoad _ t [n] (by simp [upd]))
  have x3 := x2.step (nf _) (Step.pushStore _ t [n] s.head n (by simp [upd]) (by simp))
  have x4 := x3.step (nf _) (Step.pushCasOk _ t [n] s.head n (by simp [upd]) (by simp) ⟨rfl, rfl⟩)
  have x5 := x4.step (nf _) (Step.retPush _ t (by simp [upd]))
  simp only [upd_upd] at x5
  rw [upd_back s.th t .idle ht] at x5
  exact ⟨_, x5⟩

/-- Popping and pushing node 1 over and over: only the count changes. -/
theorem cycle (t : Thread) : ∀ (k : Nat) (es : List Event) (s : State), Exec M o false es s → s.th t = .idle → s.head.ptr = 1 →
    1 ∉ s.owns t → ∃ es', Exec M o false es' ⟨⟨1, s.head.cnt + 2 * k⟩, s.next, s.th, s.owns⟩
  | 0, es, s, x, ht, hp, hn => by
    refine ⟨es, ?_⟩
    have : (⟨⟨1, s.head.cnt + 2 * 0⟩, s.next, s.th, s.owns⟩ : State) = s := by
      rcases s with ⟨⟨p, c⟩, _, _, _⟩
      simp only at hp; subst hp; rfl
    rw [this]; exact x
  | k + 1, es, s, x, ht, hp, hn => by
    obtain ⟨e1, x1⟩ := popOp x t ht (by rw [hp]; simp)
    obtain ⟨e2, x2⟩ := pushOp x1 t 1 ht (by simp) (by simp [upd, hp])
    have heq : (⟨⟨1, s.head.cnt + 1 + 1⟩, upd s.next 1 (s.next s.head.ptr), s.th,
        upd (upd s.owns t {y | y ∈ s.owns t ∨ some s.head.ptr = some y}) t
          {y | y ∈ (upd s.owns t {y | y ∈ s.owns t ∨ some s.head.ptr = some y}) t ∧ y ∉ [1]}⟩ : State)
        = ⟨⟨1, s.head.cnt + 2⟩, s.next, s.th, s.owns⟩ := by
      rw [hp]
      congr 1
      · rw [upd_self]
      · rw [upd_upd]
        apply upd_back
        ext y
        simp only [upd, if_true, Set.mem_ofPred_eq, Option.some.injEq, List.mem_singleton]
        constructor
        · intro h; exact ⟨Or.inl h, fun e => hn (e ▸ h)⟩
        · rintro ⟨h | h, h2⟩
          · exact h
          · exact absurd h.symm h2
    dsimp only at x2
    rw [heq] at x2
    obtain ⟨e3, x3⟩ := cycle t k _ _ x2 ht rfl hn
    refine ⟨e3, ?_⟩
    have : s.head.cnt + 2 * (k + 1) = s.head.cnt + 2 + 2 * k := by omega
    rw [this]; exact x3

end

/-- Thread 1 has the nodes 1, 2, 3. -/
def owns0 : Thread → Set Addr := fun t => if t = 1 then {y | y = 1 ∨ y = 2 ∨ y = 3} else {_y | False}

theorem owns0_disjoint : Disjoint0 owns0 := by
  intro t u x h1 h2
  unfold owns0 at h1 h2
  split at h1
  · split at h2
    · next e1 e2 => exact e1.trans e2.symm
    · exact absurd h2 id
  · exact absurd h1 id

/-- **C34, refuted for wrapping tags** Whatever even number `M ≥ 4` of tags there is, a thread that sleeps between loading
`next` and its compare-exchange while others make exactly `M` changes can corrupt the stack: node 2 ends up with two
threads at once, having been popped twice and pushed once. -/
theorem aba_duplicates (k : Nat) : ∃ es s, Exec (2 * k + 4) owns0 false es s ∧ 2 ∈ s.owns 0 ∧ 2 ∈ s.owns 1 := by
  have nf : ∀ s : State, false = true → Fresh (2 * k + 4) s := by simp
  have x0 : Exec (2 * k + 4) owns0 false [] (init owns0) := .init
  obtain ⟨e1, x1⟩ := pushOp x0 1 2 rfl (by simp) (by simp [init, owns0])
  obtain ⟨e2, x2⟩ := pushOp x1 1 1 rfl (by simp) (by simp [init, owns0, upd])
  -- thread 0 starts to pop node 1, reads its next, 2
  have x3 := x2.step (nf _) (Step.callPop _ 0 rfl)
  have x4 := x3.step (nf _) (Step.popLoad _ 0 (by simp [upd]))
  have x5 := x4.step (nf _) (Step.popNext _ 0 _ (by simp [upd]; rfl) (by simp))
  -- thread 1 pops both, pushes 3 and 1, then node 1 goes in and out
  obtain ⟨e6, x6⟩ := popOp x5 1 (by simp [upd, init]) (by simp)
  obtain ⟨e7, x7⟩ := popOp x6 1 (by simp [upd, init]) (by simp [upd, init])
  obtain ⟨e8, x8⟩ := pushOp x7 1 3 (by simp [upd, init]) (by simp) (by simp [upd, init, owns0])
  obtain ⟨e9, x9⟩ := pushOp x8 1 1 (by simp [upd, init]) (by simp) (by simp [upd, init])
  obtain ⟨ea, xa⟩ := cycle 1 k _ _ x9 (by simp [upd, init]) rfl (by simp [upd])
  -- thread 0's compare-exchange succeeds
  have xb := xa.step (nf _) (Step.popCasOk _ 0 _ _ (by simp [upd]; exact ⟨rfl, rfl⟩) (by
    refine ⟨rfl, ?_⟩
    simp only [init]
    show (0 + 1 + 1 + 1 + 1 + 1 + 1 + 2 * k) % (2 * k + 4) = (0 + 1 + 1) % (2 * k + 4)
    have : 0 + 1 + 1 + 1 + 1 + 1 + 1 + 2 * k = 2 + (2 * k + 4) := by omega
    rw [this, Nat.add_mod_right]))
  have xc := xb.step (nf _) (Step.retPop _ 0 _ (by simp [upd]; rfl))
  obtain ⟨ed, xd⟩ := popOp xc 0 (by simp [upd]) (by simp [upd, init])
  exact ⟨_, _, xd, by simp [upd, init], by simp [upd, init, owns0]⟩

/-- The task stack's own parameters: 19-bit tags. -/
theorem aba_task_stack : ∃ es s, Exec (2 ^ 19) owns0 false es s ∧ 2 ∈ s.owns 0 ∧ 2 ∈ s.owns 1 :=
  aba_duplicates (2 ^ 18 - 2)

/-- Fewer changes than tags altogether: nothing can have wrapped. -/
theorem fresh_of_lt (M : Nat) (s : State) (h : s.head.cnt < M) : Fresh M s := by
  right; intro t s0 _; omega

/-- The hypotheses of the partial theorems are met: an execution with a push of node 2 and then of node 1. -/
example : ∃ es s, Exec (2 ^ 19) owns0 true es s ∧ (∀ t, s.th t = .idle) ∧ s.head = ⟨2, 1⟩ := by
  have x1 := (Exec.init (M := 2 ^ 19) (owns := owns0) (fresh := true)).step
    (fun _ => fresh_of_lt _ _ (by simp [init])) (Step.callPush _ 1 [2] rfl (by simp) (by simp) (by simp)
      (by simp [init, owns0]) trivial)
  have x2 := x1.step (fun _ => fresh_of_lt _ _ (by simp [init])) (Step.pushLoad _ 1 [2] rfl)
  have x3 := x2.step (fun _ => fresh_of_lt _ _ (by simp [init])) (Step.pushStore _ 1 [2] ⟨0, 0⟩ 2 rfl rfl)
  have x4 := x3.step (fun _ => fresh_of_lt _ _ (by simp [init]))
    (Step.pushCasOk _ 1 [2] ⟨0, 0⟩ 2 rfl rfl ⟨rfl, rfl⟩)
  have x5 := x4.step (fun _ => fresh_of_lt _ _ (show 1 < 2 ^ 19 by decide)) (Step.retPush _ 1 rfl)
  exact ⟨_, _, x5, fun t => by dsimp only [upd, init]; split_ifs <;> rfl, rfl⟩

end Verif.Treiber
