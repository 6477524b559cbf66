import Verif.ParforShape
import Verif.ParforBatch
import Mathlib.Order.WellFounded
import Mathlib.Logic.Relation
/-!
# C37: a parallel loop returns after all its batches ran, and cannot hang

Everything is for any number of user threads and workers, any programs (with loops nested to any depth), any assignment
of loops to mutexes, every interleaving and every spurious wake-up.
-/
namespace Verif.Parfor

variable {N : Nat} {slot : Nat → Nat} {prog : Fin N → Option Body} {s : State N}

/-! ## What was run when a loop returns -/

/-- **C37** When a loop's call has returned, every one of its batches has run to the end exactly once. -/
theorem returned_all_ran (r : Reachable slot prog s) (j : Nat) (hj : s.g.returned j = true) (k : Nat)
    (hk : k < s.g.size j) : s.g.ran j k = 1 := by
  have C := (inv_reachable r).count
  have h0 := C.ret j hj
  have hh := C.hold j
  have hT := C.task j k
  have hn : j < s.g.next := by
    by_contra h; have := (C.fresh j (by omega)).2.1; rw [this] at hj; simp at hj
  have h1 : s.g.stack.countP (fun x => x.job = j ∧ x.idx = k) ≤ s.g.stack.countP (fun x => x.job = j) :=
    List.countP_mono_left (by simp; intro x _ h _; exact h)
  have h2 : tot (cTask j k) s.th ≤ tot (cHold j) s.th := by
    unfold tot
    refine Finset.sum_le_sum fun t _ => ?_
    refine List.sum_le_sum fun f hf => ?_
    clear hf
    cases f <;> simp only [cTask, cHold, le_refl, Nat.zero_le]
    case run o b =>
      cases o
      · simp [oTask, oHold]
      · simp only [oTask, oHold, b2n]; split_ifs <;> simp_all
    case submit j' ts k' b =>
      apply Nat.add_le_add
      · simp only [b2n]; split_ifs <;> simp_all
      · exact List.countP_mono_left (by simp; intro x _ h _; exact h)
    case announce => simp only [b2n]; split_ifs <;> simp_all
  simp only [b2n, hn, hk, and_self, if_true] at hT
  omega

/-- **C37** No batch is ever run twice, and nothing that is not a batch of some loop is run. -/
theorem ran_at_most_once (r : Reachable slot prog s) (j k : Nat) :
    s.g.ran j k ≤ 1 ∧ (0 < s.g.ran j k → j < s.g.next ∧ k < s.g.size j) := by
  have hT := (inv_reachable r).count.task j k
  unfold b2n at hT
  split_ifs at hT with h
  · exact ⟨by omega, fun _ => h⟩
  · exact ⟨by omega, fun _ => by omega⟩

/-- Frames that go on to read or write the loop's counter, tasks or closure, all of which live in the stack frame of the
call.  The part of PBC_Decrement after the last decrement uses the counter's address only. -/
def touches (j : Nat) : Frame → Prop
  | .run (some x) _ => x.1 = j
  | .submit j' _ _ _ => j' = j
  | .announce j' _ _ => j' = j
  | .dec j' => j' = j
  | .wait j' _ => j' = j
  | _ => False

/-- **C37** No thread uses a loop's memory after the call returned, nor does the task stack hold a task of it. -/
theorem no_use_after_return (r : Reachable slot prog s) (j : Nat) (hj : s.g.returned j = true) :
    (∀ t, ∀ f ∈ s.th t, ¬ touches j f) ∧ ∀ x ∈ s.g.stack, x.job ≠ j := by
  have C := (inv_reachable r).count
  have hn : j < s.g.next := by
    by_contra h; have := (C.fresh j (by omega)).2.1; rw [this] at hj; simp at hj
  have h0 := C.ret j hj
  have hh := C.hold j
  have ho := C.own j
  simp only [b2n, hj] at ho
  simp at ho
  refine ⟨?_, ?_⟩
  · intro t f hf ht
    have h1 := tot_pos_of_mem (cHold j) s.th t f hf
    have h2 := tot_pos_of_mem (cOwn j) s.th t f hf
    cases f <;> simp only [touches] at ht
    case run o b =>
      cases o
      · simp at ht
      · simp at ht; simp [cHold, oHold, b2n, ht] at h1; omega
    case submit => simp [cOwn, b2n, ht] at h2; omega
    case announce => simp [cOwn, b2n, ht] at h2; omega
    case dec => simp [cHold, b2n, ht] at h1; omega
    case wait => simp [cOwn, b2n, ht] at h2; omega
  · intro x hx e
    have : 0 < s.g.stack.countP (fun x => x.job = j) := List.countP_pos_iff.2 ⟨x, hx, by simpa using e⟩
    omega

/-! ## No deadlock -/

/-- Everything is finished: user threads have ended, workers are asleep with nothing to do. -/
structure Finished (s : State N) : Prop where
  threads : ∀ t, s.th t = [] ∨ s.th t = [.wsleep]
  stack : s.g.stack = []
  returned : ∀ j, j < s.g.next → s.g.returned j = true

/-- The frames whose next step may have to wait. -/
def blocked (slot : Nat → Nat) (g : Glob N) : Frame → Prop
  | .decLock j => g.held (slot j) ≠ none
  | .wait j .lock => g.held (slot j) ≠ none
  | .wait j .wakeLock => g.held (slot j) ≠ none
  | .wait _ .sleep => True
  | .wsleep => True
  | _ => False

theorem act_of_not_blocked (g : Glob N) (t : Fin N) (f : Frame) (h : ¬ blocked slot g f) :
    ∃ fs g' w, Act slot g t f fs g' w := by
  cases f with
  | run o b =>
    cases b with
    | ret =>
      cases o with
      | none => exact ⟨_, _, _, .retNone⟩
      | some x => exact ⟨_, _, _, .retSome x.1 x.2⟩
    | work b => exact ⟨_, _, _, .work o b⟩
    | par m f b =>
      cases m with
      | zero => exact ⟨_, _, _, .inline o f b⟩
      | succ m => exact ⟨_, _, _, .spawn o m f b⟩
  | submit j ts k b => exact ⟨_, _, _, .submit j ts k b⟩
  | announce j k b => exact ⟨_, _, _, .announce j k b .none (by simp)⟩
  | dec j =>
    by_cases h : g.pending j = 1
    · exact ⟨_, _, _, .decLast j h⟩
    · exact ⟨_, _, _, .decMore j h⟩
  | decLock j => exact ⟨_, _, _, .decLock j (by simpa [blocked] using h)⟩
  | decHold j => exact ⟨_, _, _, .decUnlock j⟩
  | decNotify j => exact ⟨_, _, _, .decNotify j⟩
  | wait j p =>
    cases p with
    | load =>
      by_cases h : g.pending j = 0
      · exact ⟨_, _, _, .waitDone j h⟩
      · exact ⟨_, _, _, .waitMore j h⟩
    | pop =>
      cases hs : g.stack with
      | nil => exact ⟨_, _, _, .waitEmpty j hs⟩
      | cons x st => exact ⟨_, _, _, .waitPop j x st hs⟩
    | lock => exact ⟨_, _, _, .waitLock j (by simpa [blocked] using h)⟩
    | check =>
      by_cases h : g.pending j = 0
      · exact ⟨_, _, _, .checkDone j h⟩
      · exact ⟨_, _, _, .checkMore j h⟩
    | wait1 => exact ⟨_, _, _, .sleep j⟩
    | sleep => simp [blocked] at h
    | wakeLock => exact ⟨_, _, _, .wakeLock j (by simpa [blocked] using h)⟩
    | wakeHold => exact ⟨_, _, _, .wakeUnlock j⟩
  | wpop na =>
    cases hs : g.stack with
    | nil => exact ⟨_, _, _, .wempty na hs⟩
    | cons x st => exact ⟨_, _, _, .wpop na x st hs⟩
  | wsleep => simp [blocked] at h
  | wnote => exact ⟨_, _, _, .wnote .none (by simp)⟩

/-- **C37** No deadlock: as long as anything is left to do, some thread can take a step, without counting on spurious
wake-ups or on the workers being notified. -/
theorem no_deadlock (r : Reachable slot prog s) (stuck : ∀ s', ¬ Step slot s s') : Finished s := by
  have I := inv_reachable r
  have C := I.count
  have top : ∀ t f rest, s.th t = f :: rest → blocked slot s.g f := by
    intro t f rest ht
    by_contra h
    obtain ⟨fs, g', w, ha⟩ := act_of_not_blocked s.g t f h
    exact stuck _ (Step.act s t f rest fs g' w ht ha)
  have free : ∀ sl, s.g.held sl = none := by
    intro sl
    by_contra h
    obtain ⟨t, ht⟩ := Option.ne_none_iff_exists'.1 h
    have h1 := (I.mutex sl t).1 ht
    cases hf : s.th t with
    | nil => rw [hf] at h1; simp [topHold] at h1
    | cons f rest =>
      have h2 := top t f rest hf
      rw [hf] at h1
      cases f <;> simp [topHold, holdsJ] at h1 <;> simp [blocked] at h2
      case wait j p => cases p <;> simp at h1 h2
  have asleep : ∀ t f rest, s.th t = f :: rest → (∃ j, f = .wait j .sleep) ∨ f = .wsleep := by
    intro t f rest ht
    have h := top t f rest ht
    cases f <;> simp [blocked] at h ⊢
    case decLock => exact h (free _)
    case wait j p => cases p <;> simp [free] at h ⊢
  have nosleep : ∀ n j t rest, s.g.next - j = n → s.th t = .wait j .sleep :: rest → False := by
    intro n
    induction n using Nat.strong_induction_on with
    | _ n ih =>
      intro j t rest hn ht
      have hj : j < s.g.next := by
        have h1 := tot_pos_of_mem (cOwn j) s.th t (.wait j .sleep) (by rw [ht]; simp)
        rw [C.own j] at h1
        simp only [cOwn, b2n, if_true] at h1
        split_ifs at h1 with h2
        · exact h2.1
        · omega
      by_cases h0 : s.g.pending j = 0
      · obtain ⟨u, f, r', h1, h2⟩ := I.woken.sleep t j rest h0 ht
        rcases asleep u f r' h1 with ⟨q, rfl⟩ | rfl <;> exact h2
      · have h1 := C.hold j
        rw [I.notask t j _ rest ht trivial, Nat.add_zero] at h1
        obtain ⟨u, f, hf, hpos⟩ := exists_of_tot_pos (cHold j) s.th (by omega)
        cases hu : s.th u with
        | nil => rw [hu] at hf; simp at hf
        | cons f₀ r' =>
          rw [hu] at hf
          have hs := I.shape u
          rw [hu, List.pairwise_cons] at hs
          rcases asleep u f₀ r' hu with ⟨q, rfl⟩ | rfl
          · rcases List.mem_cons.1 hf with rfl | hf
            · simp [cHold] at hpos
            · have hrel := hs.1 f hf
              have htask : taskJob f = some j := by
                have hb := hrel.below
                clear hrel hf
                cases f <;> simp [Below] at hb <;> simp [cHold] at hpos
                case run o b =>
                  cases o
                  · simp [oHold] at hpos
                  · simp only [oHold, b2n] at hpos
                    split_ifs at hpos with h
                    · simp [taskJob, h]
                    · simp at hpos
              have hlt := hrel.newer q j rfl htask
              have hq : q < s.g.next := by
                have h1 := tot_pos_of_mem (cOwn q) s.th u (.wait q .sleep) (by rw [hu]; simp)
                rw [C.own q] at h1
                simp only [cOwn, b2n, if_true] at h1
                split_ifs at h1 with h2
                · exact h2.1
                · omega
              exact ih (s.g.next - q) (by omega) q u r' rfl hu
          · rcases List.mem_cons.1 hf with rfl | hf
            · simp [cHold] at hpos
            · exact (hs.1 f hf).base trivial
  have threads : ∀ t, s.th t = [] ∨ s.th t = [.wsleep] := by
    intro t
    cases ht : s.th t with
    | nil => exact Or.inl rfl
    | cons f rest =>
      rcases asleep t f rest ht with ⟨q, rfl⟩ | rfl
      · exact (nosleep _ q t rest rfl ht).elim
      · right
        cases rest with
        | nil => rfl
        | cons l r' =>
          have hs := I.shape t
          rw [ht, List.pairwise_cons] at hs
          exact absurd trivial (hs.1 l (by simp)).base
  have tot0 : ∀ w : Frame → Nat, w .wsleep = 0 → tot w s.th = 0 := by
    intro w hw
    unfold tot
    refine Finset.sum_eq_zero fun t _ => ?_
    rcases threads t with h | h <;> simp [h, hw]
  have ret : ∀ j, j < s.g.next → s.g.returned j = true := by
    intro j hj
    have := C.own j
    rw [tot0 _ rfl] at this
    unfold b2n at this
    split_ifs at this with h
    by_contra hc
    exact h ⟨hj, by simpa using hc⟩
  refine ⟨threads, ?_, ret⟩
  cases hs : s.g.stack with
  | nil => rfl
  | cons x st =>
    exfalso
    have h1 := C.hold x.job
    have h2 : 0 < s.g.pending x.job := by
      rw [tot0 _ rfl, hs, List.countP_cons] at h1
      simp at h1; omega
    have hn : x.job < s.g.next := by
      by_contra h; have := (C.fresh x.job (by omega)).1; omega
    have := C.ret _ (ret _ hn)
    omega

/-! ## No livelock -/

/-- An upper bound of the work in a body, loops it starts included. -/
def weight : Body → Nat
  | .ret => 1
  | .work b => weight b + 1
  | .par m f b => weight b + (∑ i ∈ Finset.range (m + 1), (weight (f i) + 7)) + 4

def taskW (x : Task) : Nat := weight x.body + 7

def fA : Frame → Nat
  | .run none b => weight b
  | .run (some _) b => weight b + 4
  | .submit _ ts _ b => (ts.map taskW).sum + weight b + 6
  | .announce _ _ b => weight b + 5
  | .dec _ => 4
  | .decLock _ => 3
  | .decHold _ => 2
  | .decNotify _ => 1
  | .wnote => 1
  | _ => 0

def fB : Frame → Nat
  | .wait _ .wakeLock => 8
  | .wait _ .wakeHold => 7
  | .wait _ .load => 6
  | .wait _ .pop => 5
  | .wait _ .lock => 4
  | .wait _ .check => 3
  | .wait _ .wait1 => 2
  | .wait _ .sleep => 1
  | .wpop _ => 2
  | .wsleep => 1
  | _ => 0

def work (s : State N) : Nat := tot fA s.th + (s.g.stack.map taskW).sum
def polls (s : State N) : Nat := tot fB s.th

theorem sum_spawn (q : Nat) (f : Nat → Body) : ∀ m,
    (((List.range m).map fun i => (⟨q, i, f i⟩ : Task)).map taskW).sum = ∑ i ∈ Finset.range m, (weight (f i) + 7)
  | 0 => by simp
  | m + 1 => by
    rw [List.range_succ, List.map_append, List.map_append, List.sum_append, sum_spawn q f m, Finset.sum_range_succ]
    simp [taskW]

theorem weight_pos : ∀ b, 1 ≤ weight b
  | .ret => le_refl _
  | .work b => by simp [weight]
  | .par m f b => by simp [weight]

theorem step_decreases {s' : State N} (st : Step slot s s') :
    Prod.Lex (· < ·) (· < ·) (work s', polls s') (work s, polls s) := by
  cases st with
  | act t f rest fs g' w ht ha =>
  have hA := tot_act slot fA ⟨fun _ _ _ => rfl, fun _ => rfl⟩ w s.th t f rest fs ht
  have hB := tot_step fB s.th t f rest fs ht
  have key : (fs.map fA).sum + (g'.stack.map taskW).sum < fA f + (s.g.stack.map taskW).sum ∨
      ((fs.map fA).sum = fA f ∧ g'.stack = s.g.stack ∧ w = .none ∧ (fs.map fB).sum < fB f) := by
    cases ha
    case work k b => left; cases k <;> simp [fA, weight]
    case inline k f b =>
      left
      cases k <;> simp [fA, weight] <;> omega
    case spawn k m f b =>
      left
      have h1 := sum_spawn s.g.next f (m + 1)
      cases k <;> simp only [List.map_cons, List.map_nil, List.sum_cons, List.sum_nil, fA, weight, h1,
        Finset.sum_range_succ (fun i => weight (f i) + 7) (m + 1)] <;> omega
    case submit j ts k b => left; simp [fA]; omega
    case announce => left; simp [fA]
    case retNone => left; simp [fA, weight]
    case retSome => left; simp [fA, weight]
    case decLast => left; simp [fA]
    case decMore => left; simp [fA]
    case decLock => left; simp [fA]
    case decUnlock => left; simp [fA]
    case decNotify => left; simp [fA]
    case waitPop j x st hs => left; rw [hs]; simp [fA, taskW]
    case wpop na x st hs => left; rw [hs]; cases na <;> simp [fA, taskW] <;> omega
    case wnote => left; simp [fA]
    all_goals (right; refine ⟨rfl, rfl, rfl, ?_⟩; simp [fB])
  unfold work polls
  dsimp only
  rcases key with h | ⟨h1, h2, rfl, h3⟩
  · apply Prod.Lex.left; omega
  · have e : tot fA (fun u => wakeTop slot Wake.none u (Function.update s.th t (fs ++ rest) u))
        + (g'.stack.map taskW).sum = tot fA s.th + (s.g.stack.map taskW).sum := by rw [h2]; omega
    rw [e]
    apply Prod.Lex.right
    have : (fun u => wakeTop slot Wake.none u (Function.update s.th t (fs ++ rest) u))
        = Function.update s.th t (fs ++ rest) := by
      funext u; rcases wakeTop_cases slot Wake.none u (Function.update s.th t (fs ++ rest) u) with e | ⟨j, r, -, e⟩ | ⟨r, -, e⟩
      · exact e
      · simp [wakeTop] at e ⊢
      · simp [wakeTop] at e ⊢
    rw [this]
    omega

theorem step_wf : WellFounded (fun s' s : State N => Step slot s s') := by
  refine Subrelation.wf (r := InvImage (Prod.Lex (· < ·) (· < ·)) fun s => (work s, polls s)) ?_ ?_
  · intro a b h; exact step_decreases h
  · exact InvImage.wf _ (WellFounded.prod_lex Nat.lt_wfRel.wf Nat.lt_wfRel.wf)

/-- **C37** From every reachable state, any way the threads go on without spurious wake-ups ends with everything finished:
there is no endless run (no fairness needed) and only finished states have no next step. -/
theorem always_finishes (r : Reachable slot prog s) :
    (∃ s', Relation.ReflTransGen (Step slot) s s' ∧ Finished s') ∧
    (∀ s', Relation.ReflTransGen (Step slot) s s' → (∀ s'', ¬ Step slot s' s'') → Finished s') := by
  have tr : ∀ s', Relation.ReflTransGen (Step slot) s s' → Reachable slot prog s' := by
    intro s' h
    induction h with
    | refl => exact r
    | tail _ st ih => exact ih.step st
  refine ⟨?_, fun s' h hs => no_deadlock (tr s' h) hs⟩
  clear tr
  revert r
  induction s using (step_wf (slot := slot)).induction with
  | _ s ih =>
    intro r
    by_cases h : ∃ s', Step slot s s'
    · obtain ⟨s', st⟩ := h
      obtain ⟨s'', h1, h2⟩ := ih s' st (r.step st)
      exact ⟨s'', Relation.ReflTransGen.head st h1, h2⟩
    · exact ⟨s, .refl, no_deadlock r (fun s' st => h ⟨s', st⟩)⟩

/-- **C37** An execution that goes on for ever has infinitely many spurious wake-ups: a loop hangs only if the operating
system wakes sleepers for no reason without end (and even then the batches keep being run). -/
theorem endless_only_spurious (e : Nat → State N) (he : ∀ n, Step slot (e n) (e (n + 1)) ∨ Spurious (e n) (e (n + 1)))
    (n : Nat) : ∃ m, n ≤ m ∧ Spurious (e m) (e (m + 1)) := by
  by_contra hc
  push Not at hc
  have hs : ∀ m, n ≤ m → Step slot (e m) (e (m + 1)) := fun m hm => (he m).resolve_right (hc m hm)
  have H : ∀ s, ∀ m, n ≤ m → e m = s → False := by
    intro s
    induction s using (step_wf (slot := slot)).induction with
    | _ s ih =>
      intro m hm hms
      subst hms
      exact ih (e (m + 1)) (hs m hm) (m + 1) (by omega) rfl
  exact H _ n (le_refl n) rfl

/-- Spurious wake-ups do not undo work: only finitely many steps of an execution are not about waiting. -/
theorem spurious_work {s' : State N} (st : Spurious s s') : work s' = work s := by
  have hg : s'.g = s.g := by cases st <;> rfl
  unfold work
  rw [hg]
  congr 1
  cases st with
  | caller t j rest ht =>
    have := tot_step fA s.th t _ rest [.wait j .wakeLock] ht
    simp [fA] at this ⊢; exact this
  | worker t rest ht =>
    have := tot_step fA s.th t _ rest [.wpop true] ht
    simp [fA] at this ⊢; exact this

/-- **C36 with C37** A returned loop over `n` indices has run every index exactly once: each index is in exactly one batch
and that batch ran once. -/
theorem every_index_once (r : Reachable slot prog s) (workers n per : Nat) (j : Nat) (hj : s.g.returned j = true)
    (hs : s.g.size j = (ranges workers n per).length) (x : Nat) (hx : x < n) :
    ∃ i : Fin (ranges workers n per).length,
      ((ranges workers n per)[i].start ≤ x ∧ x < (ranges workers n per)[i].stop ∧ s.g.ran j i = 1) ∧
      ∀ k : Fin (ranges workers n per).length,
        (ranges workers n per)[k].start ≤ x ∧ x < (ranges workers n per)[k].stop → k = i := by
  obtain ⟨i, ⟨h1, h2⟩, hu⟩ := (index_once workers n per).1 x hx
  exact ⟨i, ⟨h1, h2, returned_all_ran r j hj i (by rw [hs]; exact i.2)⟩, fun k hk => hu k hk⟩

/-! ## The hypotheses are met -/

/-- A user thread that runs a loop of three batches, the first of which runs a nested loop of two, with one worker. -/
def demo : Fin 2 → Option Body
  | 0 => some (.par 2 (fun i => if i = 0 then .par 1 (fun _ => .ret) .ret else .work .ret) .ret)
  | 1 => none

example : ∃ s : State 2, Reachable (fun _ => 0) demo s ∧ s.g.size 0 = 3 ∧ s.g.stack.length = 2 := by
  have r0 : Reachable (fun _ => 0) demo (init demo) := .init
  have r1 := r0.step (Step.act _ 0 _ [] _ _ _ rfl (.spawn none 1 _ _))
  have r2 := r1.step (Step.act _ 0 _ _ _ _ _ rfl (.submit _ _ _ _))
  exact ⟨_, r2, rfl, rfl⟩

/-- Its loop does get to return with all batches run. -/
example : ∃ s : State 2, Reachable (fun _ => 0) demo s ∧ s.g.returned 0 = true ∧ s.g.ran 0 0 = 1 ∧ s.g.ran 0 1 = 1 ∧
    s.g.ran 0 2 = 1 := by
  have r1 := (Reachable.init (slot := fun _ => 0) (prog := demo)).step (Step.act _ 0 _ [] _ _ _ rfl (.spawn none 1 _ _))
  obtain ⟨⟨s', h1, h2⟩, -⟩ := always_finishes r1
  have tr : Reachable (fun _ => 0) demo s' := by
    clear h2
    induction h1 with
    | refl => exact r1
    | tail _ st ih => exact ih.step st
  have grow : 0 < s'.g.next ∧ s'.g.size 0 = 3 := by
    clear h2 tr
    induction h1 with
    | refl => exact ⟨Nat.one_pos, rfl⟩
    | tail _ st ih =>
      cases st with
      | act t f rest fs g' w ht ha =>
        cases ha <;> try exact ih
        exact ⟨Nat.succ_pos _, by simp only [upd]; rw [if_neg (by omega)]; exact ih.2⟩
  have hr := h2.returned 0 grow.1
  exact ⟨s', tr, hr, returned_all_ran tr 0 hr 0 (by omega), returned_all_ran tr 0 hr 1 (by omega),
    returned_all_ran tr 0 hr 2 (by omega)⟩

end Verif.Parfor
