import Verif.ParforInv
/-!
# Invariants of the parallel loops, continued: call stacks, mutexes, sleepers
-/
namespace Verif.Parfor

variable {N : Nat}

def ownJob : Frame → Option Nat
  | .submit j _ _ _ => some j
  | .announce j _ _ => some j
  | .wait j _ => some j
  | _ => none

def taskJob : Frame → Option Nat
  | .run (some x) _ => some x.1
  | _ => none

/-- Frames that may have other frames above them. -/
def Below : Frame → Prop
  | .run _ _ => True
  | .wait _ .load => True
  | .wpop _ => True
  | _ => False

def isWorker : Frame → Prop
  | .wpop _ => True
  | .wsleep => True
  | _ => False

structure Rel (u l : Frame) : Prop where
  below : Below l
  base : ¬ isWorker u
  newer : ∀ q p, ownJob u = some q → taskJob l = some p → p < q

def Shape (s : State N) : Prop := ∀ t, (s.th t).Pairwise Rel

theorem wakeTop_cases (slot : Nat → Nat) (w : Wake N) (u : Fin N) (fs : List Frame) :
    wakeTop slot w u fs = fs ∨
    (∃ j r, fs = .wait j .sleep :: r ∧ wakeTop slot w u fs = .wait j .wakeLock :: r) ∨
    (∃ r, fs = .wsleep :: r ∧ wakeTop slot w u fs = .wpop true :: r) := by
  unfold wakeTop
  split
  · split
    · right; right; exact ⟨_, rfl, rfl⟩
    · left; rfl
  · split
    · right; left; exact ⟨_, _, rfl, rfl⟩
    · left; rfl
  · left; rfl

theorem rel_wake_caller (j : Nat) (l : Frame) (h : Rel (.wait j .sleep) l) : Rel (.wait j .wakeLock) l :=
  ⟨h.below, by simp [isWorker], fun q p hq hp => h.newer q p hq hp⟩

theorem pairwise_wake (slot : Nat → Nat) (w : Wake N) (u : Fin N) (fs : List Frame) (h : fs.Pairwise Rel) :
    (wakeTop slot w u fs).Pairwise Rel := by
  rcases wakeTop_cases slot w u fs with e | ⟨j, r, e, e'⟩ | ⟨r, e, e'⟩
  · rw [e]; exact h
  · rw [e'] ; rw [e] at h
    rw [List.pairwise_cons] at h ⊢
    exact ⟨fun l hl => rel_wake_caller j l (h.1 l hl), h.2⟩
  · rw [e']; rw [e] at h
    rw [List.pairwise_cons] at h ⊢
    exact ⟨fun l hl => absurd trivial (h.1 l hl).base, h.2⟩

theorem shape_init (prog : Fin N → Option Body) : Shape (init prog) := by
  intro t
  unfold init
  dsimp only
  split <;> simp

theorem shape_spurious {s s' : State N} (I : Shape s) (st : Spurious s s') : Shape s' := by
  intro u
  cases st with
  | caller t j rest ht =>
    dsimp only
    by_cases hu : u = t
    · subst hu
      rw [Function.update_self]
      have := I u
      rw [ht, List.pairwise_cons] at this
      rw [List.pairwise_cons]
      exact ⟨fun l hl => rel_wake_caller j l (this.1 l hl), this.2⟩
    · rw [Function.update_of_ne hu]; exact I u
  | worker t rest ht =>
    dsimp only
    by_cases hu : u = t
    · subst hu
      rw [Function.update_self]
      have := I u
      rw [ht, List.pairwise_cons] at this
      rw [List.pairwise_cons]
      exact ⟨fun l hl => absurd trivial (this.1 l hl).base, this.2⟩
    · rw [Function.update_of_ne hu]; exact I u

/-- A batch that is being run belongs to a loop that exists and is pending. -/
theorem task_lt {s : State N} (C : Count s) (t : Fin N) (f : Frame) (hf : f ∈ s.th t) (p : Nat) (hp : taskJob f = some p) :
    0 < s.g.pending p ∧ p < s.g.next := by
  have h1 := tot_pos_of_mem (cHold p) s.th t f hf
  have h2 : cHold p f = 1 := by
    cases f <;> simp [taskJob] at hp
    case run o b =>
      cases o
      · simp at hp
      · simp at hp; simp [cHold, oHold, b2n, hp]
  have h3 := C.hold p
  refine ⟨by omega, ?_⟩
  by_contra hlt
  have := (C.fresh p (by omega)).1
  omega

theorem shape_step {slot : Nat → Nat} {s s' : State N} (C : Count s) (I : Shape s) (st : Step slot s s') : Shape s' := by
  cases st with
  | act t f rest fs g' w ht ha =>
  intro u
  dsimp only
  apply pairwise_wake
  by_cases hu : u = t
  swap
  · rw [Function.update_of_ne hu]; exact I u
  subst hu
  rw [Function.update_self]
  have hI := I u
  rw [ht, List.pairwise_cons] at hI
  obtain ⟨h1, h2⟩ := hI
  have hmem : ∀ l ∈ rest, ∀ p, taskJob l = some p → p < s.g.next := fun l hl p hp =>
    (task_lt C u l (by rw [ht]; simp [hl]) p hp).2
  have hf : ∀ p, taskJob f = some p → p < s.g.next := fun p hp => (task_lt C u f (by rw [ht]; simp) p hp).2
  have easy : ∀ u', (¬ isWorker u') → (ownJob u' = none ∨ ownJob u' = ownJob f) → ∀ l ∈ rest, Rel u' l := by
    intro u' hw ho l hl
    refine ⟨(h1 l hl).below, hw, fun q p hq hp => ?_⟩
    rcases ho with ho | ho
    · rw [ho] at hq; simp at hq
    · exact (h1 l hl).newer q p (by rw [← ho]; exact hq) hp
  rw [List.pairwise_append]
  refine ⟨?_, h2, ?_⟩
  · cases ha <;> try simp only [List.pairwise_cons, List.not_mem_nil, List.mem_singleton, forall_eq, false_imp_iff, implies_true,
      List.Pairwise.nil, and_true, and_self]
    case inline => exact ⟨trivial, by simp [isWorker], by simp [ownJob]⟩
    case spawn k m f' b =>
      refine ⟨trivial, by simp [isWorker], ?_⟩
      intro q p hq hp
      simp [ownJob] at hq; subst hq
      cases k
      · simp [taskJob] at hp
      · exact hf p (by simpa [taskJob] using hp)
    case announce => exact ⟨trivial, by simp [isWorker], by simp [ownJob]⟩
    case waitPop => exact ⟨trivial, by simp [isWorker], by simp [ownJob]⟩
    case wpop na x st hs =>
      cases na
      · simp
        exact ⟨trivial, by simp [isWorker], by simp [ownJob]⟩
      · simp
        exact ⟨⟨⟨trivial, by simp [isWorker], by simp [ownJob]⟩, ⟨trivial, by simp [isWorker], by simp [ownJob]⟩⟩,
          ⟨trivial, by simp [isWorker], by simp [ownJob]⟩⟩
  · intro u' hu' l hl
    cases ha
    case spawn k m f' b =>
      simp at hu'
      rcases hu' with rfl | rfl
      · refine ⟨(h1 l hl).below, by simp [isWorker], ?_⟩
        intro q p hq hp
        simp [ownJob] at hq; subst hq
        exact hmem l hl p hp
      · exact easy _ (by simp [isWorker]) (by simp [ownJob]) l hl
    case wpop => exact absurd trivial (h1 l hl).base
    case wempty => exact absurd trivial (h1 l hl).base
    all_goals
      simp only [List.mem_cons, List.not_mem_nil, or_false] at hu'
    case inline => rcases hu' with rfl | rfl <;> exact easy _ (by simp [isWorker]) (by simp [ownJob]) l hl
    case announce => rcases hu' with rfl | rfl <;> exact easy _ (by simp [isWorker]) (by simp [ownJob]) l hl
    case waitPop => rcases hu' with rfl | rfl <;> exact easy _ (by simp [isWorker]) (by simp [ownJob]) l hl
    all_goals
      subst hu'
      exact easy _ (by simp [isWorker]) (by simp [ownJob]) l hl

/-! ## Mutexes -/

def holdsJ : Frame → Option Nat
  | .decHold j => some j
  | .wait j .check => some j
  | .wait j .wait1 => some j
  | .wait j .wakeHold => some j
  | _ => none

def topHold : List Frame → Option Nat
  | f :: _ => holdsJ f
  | [] => none

def Mutex (slot : Nat → Nat) (s : State N) : Prop :=
  ∀ sl t, s.g.held sl = some t ↔ (topHold (s.th t)).map slot = some sl

theorem topHold_wake (slot : Nat → Nat) (w : Wake N) (u : Fin N) (fs : List Frame) :
    topHold (wakeTop slot w u fs) = topHold fs := by
  rcases wakeTop_cases slot w u fs with e | ⟨j, r, e, e'⟩ | ⟨r, e, e'⟩
  · rw [e]
  · rw [e', e]; rfl
  · rw [e', e]; rfl

theorem topHold_below (l : Frame) (r : List Frame) (h : Below l) : topHold (l :: r) = none := by
  cases l <;> simp_all [Below, topHold, holdsJ]
  case wait j p => cases p <;> simp_all

theorem topHold_rest {f : Frame} {rest : List Frame} (h : (f :: rest).Pairwise Rel) : topHold rest = none := by
  cases rest with
  | nil => rfl
  | cons l r => exact topHold_below l r ((List.pairwise_cons.1 h).1 l (by simp)).below

theorem mutex_init (slot : Nat → Nat) (prog : Fin N → Option Body) : Mutex slot (init prog) := by
  intro sl t
  unfold init
  dsimp only
  split <;> simp [Glob.init, topHold, holdsJ]

theorem mutex_spurious {slot : Nat → Nat} {s s' : State N} (I : Mutex slot s) (st : Spurious s s') : Mutex slot s' := by
  intro sl u
  cases st with
  | caller t j rest ht =>
    dsimp only
    by_cases hu : u = t
    · subst hu
      rw [Function.update_self, I sl u, ht]; rfl
    · rw [Function.update_of_ne hu]; exact I sl u
  | worker t rest ht =>
    dsimp only
    by_cases hu : u = t
    · subst hu
      rw [Function.update_self, I sl u, ht]; rfl
    · rw [Function.update_of_ne hu]; exact I sl u

theorem mutex_step {slot : Nat → Nat} {s s' : State N} (S : Shape s) (I : Mutex slot s) (st : Step slot s s') :
    Mutex slot s' := by
  cases st with
  | act t f rest fs g' w ht ha =>
  have hr : topHold rest = none := topHold_rest (f := f) (by rw [← ht]; exact S t)
  have ht' := I
  -- what the step does to the lock and to the frame's hold on it
  have key : (g'.held = s.g.held ∧ topHold (fs ++ rest) = holdsJ f) ∨
      (∃ j, s.g.held (slot j) = none ∧ holdsJ f = none ∧ g'.held = upd s.g.held (slot j) (some t) ∧
        topHold (fs ++ rest) = some j) ∨
      (∃ j, holdsJ f = some j ∧ g'.held = upd s.g.held (slot j) none ∧ topHold (fs ++ rest) = none) := by
    cases ha
    case wpop na x st hs => left; cases na <;> exact ⟨rfl, rfl⟩
    case decLock j h => right; left; exact ⟨j, h, rfl, rfl, rfl⟩
    case waitLock j h => right; left; exact ⟨j, h, rfl, rfl, rfl⟩
    case wakeLock j h => right; left; exact ⟨j, h, rfl, rfl, rfl⟩
    case decUnlock j => right; right; exact ⟨j, rfl, rfl, rfl⟩
    case checkDone j h => right; right; exact ⟨j, rfl, rfl, by simpa using hr⟩
    case sleep j => right; right; exact ⟨j, rfl, rfl, rfl⟩
    case wakeUnlock j => right; right; exact ⟨j, rfl, rfl, rfl⟩
    all_goals (left; first | exact ⟨rfl, rfl⟩ | exact ⟨rfl, by simpa [holdsJ] using hr⟩)
  intro sl u
  dsimp only
  rw [topHold_wake]
  have hf : topHold (s.th t) = holdsJ f := by rw [ht]; rfl
  by_cases hu : u = t
  · subst hu
    rw [Function.update_self]
    rcases key with ⟨e1, e2⟩ | ⟨j, e1, e2, e3, e4⟩ | ⟨j, e1, e2, e3⟩
    · rw [e1, e2, I sl u, hf]
    · rw [e3, e4]
      have := I sl u
      rw [hf, e2] at this
      by_cases hs : sl = slot j
      · subst hs; simp [upd]
      · have hs' : ¬ slot j = sl := fun e => hs e.symm
        simp [upd, hs, hs', this]
    · rw [e2, e3]
      have := I sl u
      rw [hf, e1] at this
      by_cases hs : sl = slot j
      · subst hs; simp [upd]
      · have hs' : ¬ slot j = sl := fun e => hs e.symm
        simp [upd, hs, this]; exact hs'
  · rw [Function.update_of_ne hu]
    rcases key with ⟨e1, e2⟩ | ⟨j, e1, e2, e3, e4⟩ | ⟨j, e1, e2, e3⟩
    · rw [e1]; exact I sl u
    · rw [e3]
      by_cases hs : sl = slot j
      · subst hs
        have := I (slot j) u
        rw [e1] at this
        simp only [upd, if_true, Option.some.injEq]
        constructor
        · intro e; exact absurd e.symm hu
        · intro e; have := this.2 e; simp at this
      · simp only [upd, hs, if_false]; exact I sl u
    · rw [e2]
      by_cases hs : sl = slot j
      · subst hs
        have h1 := (I (slot j) t).2 (by rw [hf, e1]; rfl)
        have h2 := I (slot j) u
        simp only [upd, if_true]
        constructor
        · intro e; simp at e
        · intro e
          have := h2.2 e
          rw [h1] at this; simp at this; exact absurd this.symm hu
      · simp only [upd, hs, if_false]; exact I sl u

/-! ## After an unsuccessful pop there are no tasks of the loop left to take -/

def Submits (s : State N) : Prop :=
  ∀ t f, f ∈ s.th t → ∀ j ts k b, f = .submit j ts k b → ∀ x ∈ ts, x.job = j

theorem mem_wakeTop (slot : Nat → Nat) (w : Wake N) (u : Fin N) (fs : List Frame) (f : Frame)
    (h : f ∈ wakeTop slot w u fs) : f ∈ fs ∨ (∃ j, f = .wait j .wakeLock) ∨ f = .wpop true := by
  rcases wakeTop_cases slot w u fs with e | ⟨j, r, e, e'⟩ | ⟨r, e, e'⟩
  · rw [e] at h; exact Or.inl h
  · rw [e'] at h; rw [e]
    rcases List.mem_cons.1 h with h | h
    · exact Or.inr (Or.inl ⟨j, h⟩)
    · exact Or.inl (List.mem_cons_of_mem _ h)
  · rw [e'] at h; rw [e]
    rcases List.mem_cons.1 h with h | h
    · exact Or.inr (Or.inr h)
    · exact Or.inl (List.mem_cons_of_mem _ h)

theorem submits_init (prog : Fin N → Option Body) : Submits (init prog) := by
  intro t f hf j ts k b e
  unfold init at hf
  dsimp only at hf
  split at hf <;> simp at hf <;> rw [hf] at e <;> simp at e

theorem submits_spurious {s s' : State N} (I : Submits s) (st : Spurious s s') : Submits s' := by
  intro u f hf j ts k b e
  cases st with
  | caller t j' rest ht =>
    dsimp only at hf
    by_cases hu : u = t
    · subst hu
      rw [Function.update_self] at hf
      rcases List.mem_cons.1 hf with rfl | hf
      · simp at e
      · exact I u f (by rw [ht]; exact List.mem_cons_of_mem _ hf) j ts k b e
    · rw [Function.update_of_ne hu] at hf; exact I u f hf j ts k b e
  | worker t rest ht =>
    dsimp only at hf
    by_cases hu : u = t
    · subst hu
      rw [Function.update_self] at hf
      rcases List.mem_cons.1 hf with rfl | hf
      · simp at e
      · exact I u f (by rw [ht]; exact List.mem_cons_of_mem _ hf) j ts k b e
    · rw [Function.update_of_ne hu] at hf; exact I u f hf j ts k b e

theorem submits_step {slot : Nat → Nat} {s s' : State N} (I : Submits s) (st : Step slot s s') : Submits s' := by
  cases st with
  | act t f₀ rest fs g' w ht ha =>
  intro u f hf j ts k b e
  dsimp only at hf
  rcases mem_wakeTop _ _ _ _ _ hf with hf | ⟨j', rfl⟩ | rfl
  · by_cases hu : u = t
    · subst hu
      rw [Function.update_self] at hf
      rcases List.mem_append.1 hf with hf' | hf'
      · clear hf
        cases ha
        case spawn =>
          simp at hf'
          rcases hf' with rfl | rfl
          · simp at e; obtain ⟨rfl, rfl, -, -⟩ := e
            intro x hx
            obtain ⟨i, -, rfl⟩ := List.mem_map.1 hx
            rfl
          · simp at e
        case wpop na x st hs => cases na <;> subst e <;> simp at hf'
        all_goals (subst e; simp at hf')
      · exact I u f (by rw [ht]; exact List.mem_cons_of_mem _ hf') j ts k b e
    · rw [Function.update_of_ne hu] at hf; exact I u f hf j ts k b e
  · simp at e
  · simp at e

def tired : Phase → Prop
  | .lock => True
  | .check => True
  | .wait1 => True
  | .sleep => True
  | _ => False

/-- Top frames that wait after a failed pop: no task of that loop is on the stack. -/
def NoTask (s : State N) : Prop :=
  ∀ t j p r, s.th t = .wait j p :: r → tired p → s.g.stack.countP (fun x => x.job = j) = 0

theorem tot_two (w : Frame → Nat) (th : Fin N → List Frame) (t u : Fin N) (htu : t ≠ u) (f f' : Frame) (hf : f ∈ th t)
    (hf' : f' ∈ th u) : w f + w f' ≤ tot w th := by
  have h1 : w f ≤ ((th t).map w).sum := List.single_le_sum (by simp) _ (List.mem_map_of_mem hf)
  have h2 : w f' ≤ ((th u).map w).sum := List.single_le_sum (by simp) _ (List.mem_map_of_mem hf')
  unfold tot
  rw [← Finset.add_sum_erase Finset.univ (fun u => ((th u).map w).sum) (Finset.mem_univ t)]
  have h3 := Finset.single_le_sum (f := fun u => ((th u).map w).sum) (s := Finset.univ.erase t) (by simp)
    (Finset.mem_erase.2 ⟨htu.symm, Finset.mem_univ u⟩)
  omega

theorem notask_init (prog : Fin N → Option Body) : NoTask (init prog) := by
  intro t j p r h _
  simp [init, Glob.init]

theorem notask_spurious {s s' : State N} (I : NoTask s) (st : Spurious s s') : NoTask s' := by
  intro u j p r h hp
  cases st with
  | caller t j' rest ht =>
    dsimp only at h ⊢
    by_cases hu : u = t
    · subst hu
      rw [Function.update_self] at h
      simp at h; obtain ⟨⟨-, rfl⟩, -⟩ := h; simp [tired] at hp
    · rw [Function.update_of_ne hu] at h; exact I u j p r h hp
  | worker t rest ht =>
    dsimp only at h ⊢
    by_cases hu : u = t
    · subst hu
      rw [Function.update_self] at h
      simp at h
    · rw [Function.update_of_ne hu] at h; exact I u j p r h hp

theorem notask_step {slot : Nat → Nat} {s s' : State N} (C : Count s) (S : Shape s) (B : Submits s) (I : NoTask s)
    (st : Step slot s s') : NoTask s' := by
  cases st with
  | act t f rest fs g' w ht ha =>
  intro u j p r h hp
  dsimp only at h ⊢
  -- the frame was there before, or the step made it
  have h0 : Function.update s.th t (fs ++ rest) u = .wait j p :: r := by
    rcases wakeTop_cases slot w u (Function.update s.th t (fs ++ rest) u) with e | ⟨j', r', e, e'⟩ | ⟨r', e, e'⟩
    · rw [e] at h; exact h
    · rw [e'] at h; simp at h; obtain ⟨⟨-, rfl⟩, -⟩ := h; simp [tired] at hp
    · rw [e'] at h; simp at h
  have hS := S t
  rw [ht, List.pairwise_cons] at hS
  by_cases hu : u = t
  · subst hu
    rw [Function.update_self] at h0
    have hrest : rest ≠ .wait j p :: r := by
      intro e
      have := (hS.1 (.wait j p) (by rw [e]; simp)).below
      cases p <;> simp [Below, tired] at this hp
    cases ha
    case waitEmpty j' hs => simp [hs]
    case waitLock j' hl =>
      simp at h0; obtain ⟨⟨rfl, rfl⟩, rfl⟩ := h0
      exact I u _ _ _ ht trivial
    case checkMore j' hl =>
      simp at h0; obtain ⟨⟨rfl, rfl⟩, rfl⟩ := h0
      exact I u _ _ _ ht trivial
    case sleep j' =>
      simp at h0; obtain ⟨⟨rfl, rfl⟩, rfl⟩ := h0
      exact I u _ _ _ ht trivial
    case wpop na x st hs => cases na <;> simp at h0
    case waitMore j' hl =>
      simp at h0; obtain ⟨⟨rfl, rfl⟩, rfl⟩ := h0
      simp [tired] at hp
    case wakeLock j' hl =>
      simp at h0; obtain ⟨⟨rfl, rfl⟩, rfl⟩ := h0
      simp [tired] at hp
    case wakeUnlock j' =>
      simp at h0; obtain ⟨⟨rfl, rfl⟩, rfl⟩ := h0
      simp [tired] at hp
    all_goals first
      | (simp at h0; done)
      | exact absurd (by simpa using h0) hrest
  · rw [Function.update_of_ne hu] at h0
    have old := I u j p r h0 hp
    cases ha
    case submit j' ts k b =>
      dsimp only
      rw [List.countP_append, old, Nat.add_zero]
      by_contra hne
      obtain ⟨x, hx, hxj⟩ := List.countP_pos_iff.1 (Nat.pos_of_ne_zero hne)
      have hj := B t _ (by rw [ht]; simp) j' ts k b rfl x hx
      simp at hxj
      have hjj : j' = j := by rw [← hj, hxj]
      have := tot_two (cOwn j) s.th t u (Ne.symm hu) _ _ (by rw [ht]; exact List.mem_cons_self)
        (by rw [h0]; exact List.mem_cons_self)
      rw [C.own j] at this
      simp only [cOwn, b2n, hjj, if_true] at this
      split_ifs at this <;> omega
    case waitPop j' x st hs =>
      rw [hs, List.countP_cons] at old
      dsimp only; omega
    case wpop na x st hs =>
      rw [hs, List.countP_cons] at old
      dsimp only; omega
    all_goals exact old

/-! ## A sleeper whose loop is done will be woken -/

def willNotify (j : Nat) : Frame → Prop
  | .decLock j' => j' = j
  | .decHold j' => j' = j
  | .decNotify j' => j' = j
  | _ => False

structure Woken (s : State N) : Prop where
  wait1 : ∀ t j r, s.g.pending j = 0 → s.th t = .wait j .wait1 :: r → ∃ u r', s.th u = .decLock j :: r'
  sleep : ∀ t j r, s.g.pending j = 0 → s.th t = .wait j .sleep :: r → ∃ u f r', s.th u = f :: r' ∧ willNotify j f

theorem woken_init (prog : Fin N → Option Body) : Woken (init prog) := by
  constructor <;>
  · intro t j r _ h
    unfold init at h
    dsimp only at h
    split at h <;> simp at h

theorem wakeTop_keep (slot : Nat → Nat) (w : Wake N) (u : Fin N) (f : Frame) (r : List Frame)
    (h1 : ∀ j, f ≠ .wait j .sleep) (h2 : f ≠ .wsleep) : wakeTop slot w u (f :: r) = f :: r := by
  rcases wakeTop_cases slot w u (f :: r) with e | ⟨j, r', e, e'⟩ | ⟨r', e, e'⟩
  · exact e
  · simp at e; exact absurd e.1 (h1 j)
  · simp at e; exact absurd e.1 h2

theorem willNotify_keep (slot : Nat → Nat) (w : Wake N) (u : Fin N) (f : Frame) (r : List Frame) (j : Nat)
    (h : willNotify j f) : wakeTop slot w u (f :: r) = f :: r := by
  apply wakeTop_keep
  · rintro j' rfl; exact h
  · rintro rfl; exact h

theorem woken_spurious {s s' : State N} (I : Woken s) (st : Spurious s s') : Woken s' := by
  have keep : ∀ u f r, s.th u = f :: r → ∀ j, willNotify j f → s'.th u = f :: r := by
    intro u f r h j hf
    cases st with
    | caller t j' rest ht =>
      dsimp only
      rw [Function.update_of_ne]; exact h
      rintro rfl
      rw [ht] at h; simp at h; obtain ⟨rfl, -⟩ := h; exact hf
    | worker t rest ht =>
      dsimp only
      rw [Function.update_of_ne]; exact h
      rintro rfl
      rw [ht] at h; simp at h; obtain ⟨rfl, -⟩ := h; exact hf
  have back : ∀ u j p r, s'.th u = .wait j p :: r → p ≠ .wakeLock → s.th u = .wait j p :: r := by
    intro u j p r h hp
    cases st with
    | caller t j' rest ht =>
      dsimp only at h
      by_cases hu : u = t
      · subst hu; rw [Function.update_self] at h; simp at h; exact absurd h.1.2.symm hp
      · rw [Function.update_of_ne hu] at h; exact h
    | worker t rest ht =>
      dsimp only at h
      by_cases hu : u = t
      · subst hu; rw [Function.update_self] at h; simp at h
      · rw [Function.update_of_ne hu] at h; exact h
  have hg : s'.g = s.g := by cases st <;> rfl
  constructor
  · intro t j r h0 h
    rw [hg] at h0
    obtain ⟨u, r', h1⟩ := I.wait1 t j r h0 (back _ _ _ _ h (by simp))
    exact ⟨u, r', keep _ _ _ h1 j rfl⟩
  · intro t j r h0 h
    rw [hg] at h0
    obtain ⟨u, f, r', h1, h2⟩ := I.sleep t j r h0 (back _ _ _ _ h (by simp))
    exact ⟨u, f, r', keep _ _ _ h1 j h2, h2⟩

theorem woken_step {slot : Nat → Nat} {s s' : State N} (S : Shape s) (M : Mutex slot s) (I : Woken s)
    (st : Step slot s s') : Woken s' := by
  cases st with
  | act t f rest fs g' w ht ha =>
  have hS := S t
  rw [ht, List.pairwise_cons] at hS
  -- a waiting frame on top was there before, or this step put it there
  have back : ∀ u j p r, wakeTop slot w u (Function.update s.th t (fs ++ rest) u) = .wait j p :: r → p ≠ .wakeLock →
      (u ≠ t ∧ s.th u = .wait j p :: r) ∨ (u = t ∧ fs ++ rest = .wait j p :: r) := by
    intro u j p r h hp
    have h0 : Function.update s.th t (fs ++ rest) u = .wait j p :: r := by
      rcases wakeTop_cases slot w u (Function.update s.th t (fs ++ rest) u) with e | ⟨j', r', e, e'⟩ | ⟨r', e, e'⟩
      · rw [e] at h; exact h
      · rw [e'] at h; simp at h; exact absurd h.1.2.symm hp
      · rw [e'] at h; simp at h
    by_cases hu : u = t
    · subst hu; rw [Function.update_self] at h0; exact Or.inr ⟨rfl, h0⟩
    · rw [Function.update_of_ne hu] at h0; exact Or.inl ⟨hu, h0⟩
  have keep : ∀ u j f' r', s.th u = f' :: r' → willNotify j f' → u ≠ t →
      wakeTop slot w u (Function.update s.th t (fs ++ rest) u) = f' :: r' := by
    intro u j f' r' h hf hu
    rw [Function.update_of_ne hu, h]
    exact willNotify_keep _ _ _ _ _ j hf
  have mine : ∀ j f', fs = [f'] → willNotify j f' →
      wakeTop slot w t (Function.update s.th t (fs ++ rest) t) = f' :: rest := by
    intro j f' e hf
    rw [Function.update_self, e]
    exact willNotify_keep _ _ _ _ _ j hf
  have hrest : ∀ j p r, rest = .wait j p :: r → p = .load := by
    intro j p r e
    have := (hS.1 (.wait j p) (by rw [e]; simp)).below
    cases p <;> simp [Below] at this ⊢
  -- the counter
  have hpend : ∀ j, g'.pending j = 0 → s.g.pending j = 0 ∨ (f = .dec j ∧ fs = [.decLock j]) := by
    intro j h
    cases ha <;> try exact Or.inl h
    case spawn =>
      dsimp only [upd] at h
      split at h
      · omega
      · exact Or.inl h
    case decLast j' h1 =>
      by_cases e : j = j'
      · subst e; exact Or.inr ⟨rfl, rfl⟩
      · simp only [upd, e, if_false] at h; exact Or.inl h
    case decMore j' h1 =>
      by_cases e : j = j'
      · subst e; simp [upd] at h; left; omega
      · simp only [upd, e, if_false] at h; exact Or.inl h
  constructor
  · intro u j r h0 h
    dsimp only at h0 h ⊢
    rcases hpend j h0 with h1 | ⟨rfl, e2⟩
    · rcases back u j _ r h (by simp) with ⟨hu, h2⟩ | ⟨rfl, h2⟩
      · obtain ⟨v, r', h3⟩ := I.wait1 u j r h1 h2
        by_cases hv : v = t
        · subst hv
          rw [ht] at h3; simp at h3; obtain ⟨rfl, rfl⟩ := h3
          exfalso
          cases ha
          case decLock hl =>
            have := (M (slot j) u).2 (by rw [h2]; rfl)
            rw [hl] at this; simp at this
        · exact ⟨v, r', keep v j _ r' h3 rfl hv⟩
      · exfalso
        cases ha
        case checkMore j' hl =>
          simp at h2; obtain ⟨rfl, rfl⟩ := h2
          exact hl h1
        case wpop na x st hs => cases na <;> simp at h2
        all_goals first
          | (simp at h2; done)
          | (have := hrest _ _ _ (by simpa using h2); simp at this)
    · exact ⟨t, rest, mine j _ e2 rfl⟩
  · intro u j r h0 h
    dsimp only at h0 h ⊢
    rcases hpend j h0 with h1 | ⟨rfl, e2⟩
    · rcases back u j _ r h (by simp) with ⟨hu, h2⟩ | ⟨rfl, h2⟩
      · obtain ⟨v, f', r', h3, h4⟩ := I.sleep u j r h1 h2
        by_cases hv : v = t
        · subst hv
          rw [ht] at h3; simp at h3; obtain ⟨rfl, rfl⟩ := h3
          cases ha <;> simp only [willNotify] at h4
          case decLock j' hl => subst h4; exact ⟨v, _, rest, mine _ _ rfl rfl, rfl⟩
          case decUnlock j' => subst h4; exact ⟨v, _, rest, mine _ _ rfl rfl, rfl⟩
          case decNotify j' =>
            subst h4
            exfalso
            rw [Function.update_of_ne hu, h2] at h
            simp [wakeTop] at h
        · exact ⟨v, f', r', keep v j f' r' h3 h4 hv, h4⟩
      · cases ha
        case sleep j' =>
          simp at h2; obtain ⟨rfl, rfl⟩ := h2
          obtain ⟨v, r', h3⟩ := I.wait1 u _ _ h1 ht
          have hv : v ≠ u := by
            rintro rfl
            rw [ht] at h3; simp at h3
          exact ⟨v, _, r', keep v _ _ r' h3 rfl hv, rfl⟩
        case wpop na x st hs => cases na <;> simp at h2
        all_goals first
          | (simp at h2; done)
          | (exfalso; have := hrest _ _ _ (by simpa using h2); simp at this)
    · exact ⟨t, _, rest, mine j _ e2 rfl, rfl⟩

/-! ## All together -/

structure Inv (slot : Nat → Nat) (s : State N) : Prop where
  count : Count s
  shape : Shape s
  mutex : Mutex slot s
  submits : Submits s
  notask : NoTask s
  woken : Woken s

theorem inv_reachable {slot : Nat → Nat} {prog : Fin N → Option Body} {s : State N} (r : Reachable slot prog s) :
    Inv slot s := by
  induction r with
  | init => exact ⟨count_init _, shape_init _, mutex_init _ _, submits_init _, notask_init _, woken_init _⟩
  | step _ st ih => exact ⟨count_step ih.count st, shape_step ih.count ih.shape st, mutex_step ih.shape ih.mutex st,
      submits_step ih.submits st, notask_step ih.count ih.shape ih.submits ih.notask st,
      woken_step ih.shape ih.mutex ih.woken st⟩
  | spurious _ st ih => exact ⟨count_spurious ih.count st, shape_spurious ih.shape st, mutex_spurious ih.mutex st,
      submits_spurious ih.submits st, notask_spurious ih.notask st, woken_spurious ih.woken st⟩

end Verif.Parfor
