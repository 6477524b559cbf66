import Verif.Parfor
import Mathlib.Tactic.Ring
import Mathlib.Algebra.Order.BigOperators.Group.Finset
import Mathlib.Algebra.Order.BigOperators.Group.List
import Mathlib.Tactic.Linarith
import Mathlib.Tactic.SplitIfs
import Mathlib.Tactic.ByContra
import Mathlib.Tactic.Tauto
/-!
# Invariants of the parallel loops
-/
namespace Verif.Parfor

variable {N : Nat}

/-! ## Totals over all call stacks -/

def tot (w : Frame → Nat) (th : Fin N → List Frame) : Nat := ∑ t, ((th t).map w).sum

theorem tot_update (w : Frame → Nat) (th : Fin N → List Frame) (t : Fin N) (fs : List Frame) :
    tot w (Function.update th t fs) + ((th t).map w).sum = tot w th + (fs.map w).sum := by
  unfold tot
  rw [← Finset.add_sum_erase Finset.univ (fun u => ((Function.update th t fs u).map w).sum) (Finset.mem_univ t),
    ← Finset.add_sum_erase Finset.univ (fun u => ((th u).map w).sum) (Finset.mem_univ t)]
  have : ∑ x ∈ Finset.univ.erase t, ((Function.update th t fs x).map w).sum
      = ∑ x ∈ Finset.univ.erase t, ((th x).map w).sum := by
    apply Finset.sum_congr rfl
    intro x hx
    rw [Function.update_of_ne (Finset.ne_of_mem_erase hx)]
  rw [this]; simp; ring

theorem tot_step (w : Frame → Nat) (th : Fin N → List Frame) (t : Fin N) (f : Frame) (rest fs : List Frame)
    (ht : th t = f :: rest) :
    tot w (Function.update th t (fs ++ rest)) + w f = tot w th + (fs.map w).sum := by
  have := tot_update w th t (fs ++ rest)
  rw [ht] at this
  simp at this
  omega

/-- Weights that do not depend on where a waiting caller or a worker is. -/
def Blind (w : Frame → Nat) : Prop := (∀ j p q, w (.wait j p) = w (.wait j q)) ∧ ∀ b, w (.wpop b) = w .wsleep

theorem wakeTop_sum (slot : Nat → Nat) (w : Frame → Nat) (hw : Blind w) (k : Wake N) (u : Fin N) (fs : List Frame) :
    ((wakeTop slot k u fs).map w).sum = (fs.map w).sum := by
  unfold wakeTop
  split
  · split
    · simp [hw.2]
    · rfl
  · split
    · simp; exact hw.1 _ _ _
    · rfl
  · rfl

theorem tot_wake (slot : Nat → Nat) (w : Frame → Nat) (hw : Blind w) (k : Wake N) (th : Fin N → List Frame) :
    tot w (fun u => wakeTop slot k u (th u)) = tot w th := by
  unfold tot
  exact Finset.sum_congr rfl fun u _ => wakeTop_sum slot w hw k u _

theorem tot_act (slot : Nat → Nat) (w : Frame → Nat) (hw : Blind w) (k : Wake N) (th : Fin N → List Frame) (t : Fin N)
    (f : Frame) (rest fs : List Frame) (ht : th t = f :: rest) :
    tot w (fun u => wakeTop slot k u (Function.update th t (fs ++ rest) u)) + w f = tot w th + (fs.map w).sum := by
  rw [tot_wake slot w hw]; exact tot_step w th t f rest fs ht

theorem tot_pos_of_mem (w : Frame → Nat) (th : Fin N → List Frame) (t : Fin N) (f : Frame) (hf : f ∈ th t) :
    w f ≤ tot w th := by
  have h1 : w f ≤ ((th t).map w).sum := List.single_le_sum (by simp) _ (List.mem_map_of_mem hf)
  exact h1.trans (Finset.single_le_sum (f := fun u => ((th u).map w).sum) (by simp) (Finset.mem_univ t))

theorem exists_of_tot_pos (w : Frame → Nat) (th : Fin N → List Frame) (h : 0 < tot w th) :
    ∃ t, ∃ f ∈ th t, 0 < w f := by
  by_contra hc
  push Not at hc
  have : tot w th = 0 := by
    unfold tot
    refine Finset.sum_eq_zero fun t _ => List.sum_eq_zero ?_
    intro x hx
    obtain ⟨f, hf, rfl⟩ := List.mem_map.1 hx
    have := hc t f hf
    omega
  omega

/-! ## Counting -/

def b2n (p : Prop) [Decidable p] : Nat := if p then 1 else 0

def oTask (j k : Nat) : Option (Nat × Nat) → Nat
  | some x => b2n (x.1 = j ∧ x.2 = k)
  | none => 0

def oHold (j : Nat) : Option (Nat × Nat) → Nat
  | some x => b2n (x.1 = j)
  | none => 0

/-- The batch (j, k) is waiting in, or being run by, this frame. -/
def cTask (j k : Nat) : Frame → Nat
  | .run o _ => oTask j k o
  | .submit j' ts k' _ => b2n (j' = j ∧ k' = k) + ts.countP (fun x => x.job = j ∧ x.idx = k)
  | .announce j' k' _ => b2n (j' = j ∧ k' = k)
  | _ => 0

/-- How many of the loop's pending decrements this frame will make. -/
def cHold (j : Nat) : Frame → Nat
  | .run o _ => oHold j o
  | .submit j' ts _ _ => b2n (j' = j) + ts.countP (fun x => x.job = j)
  | .announce j' _ _ => b2n (j' = j)
  | .dec j' => b2n (j' = j)
  | _ => 0

/-- This frame belongs to the call of the loop itself. -/
def cOwn (j : Nat) : Frame → Nat
  | .submit j' _ _ _ => b2n (j' = j)
  | .announce j' _ _ => b2n (j' = j)
  | .wait j' _ => b2n (j' = j)
  | _ => 0

theorem blind_task (j k : Nat) : Blind (cTask j k) := ⟨fun _ _ _ => rfl, fun _ => rfl⟩
theorem blind_hold (j : Nat) : Blind (cHold j) := ⟨fun _ _ _ => rfl, fun _ => rfl⟩
theorem blind_own (j : Nat) : Blind (cOwn j) := ⟨fun _ _ _ => rfl, fun _ => rfl⟩

theorem countP_spawn_task (q : Nat) (f : Nat → Body) (j k : Nat) : ∀ m,
    (((List.range m).map fun i => (⟨q, i, f i⟩ : Task)).countP fun x => x.job = j ∧ x.idx = k) = b2n (q = j ∧ k < m)
  | 0 => by simp [b2n]
  | m + 1 => by
    rw [List.range_succ, List.map_append, List.countP_append, countP_spawn_task q f j k m]
    by_cases h1 : q = j
    · by_cases h2 : m = k
      · simp [b2n, h1, h2]
      · have : k < m + 1 ↔ k < m := by omega
        simp [b2n, h1, h2, this]
    · simp [b2n, h1]

theorem countP_spawn_hold (q : Nat) (f : Nat → Body) (j : Nat) : ∀ m,
    (((List.range m).map fun i => (⟨q, i, f i⟩ : Task)).countP fun x => x.job = j) = if q = j then m else 0
  | 0 => by simp
  | m + 1 => by
    rw [List.range_succ, List.map_append, List.countP_append, countP_spawn_hold q f j m]
    by_cases h1 : q = j <;> simp [h1]

structure Count (s : State N) : Prop where
  /-- every batch of every loop is in exactly one place -/
  task : ∀ j k, tot (cTask j k) s.th + s.g.stack.countP (fun x => x.job = j ∧ x.idx = k) + s.g.ran j k
      = b2n (j < s.g.next ∧ k < s.g.size j)
  hold : ∀ j, tot (cHold j) s.th + s.g.stack.countP (fun x => x.job = j) = s.g.pending j
  own : ∀ j, tot (cOwn j) s.th = b2n (j < s.g.next ∧ s.g.returned j = false)
  ret : ∀ j, s.g.returned j = true → s.g.pending j = 0
  fresh : ∀ j, s.g.next ≤ j → s.g.pending j = 0 ∧ s.g.returned j = false ∧ s.g.size j = 0

theorem count_init (prog : Fin N → Option Body) : Count (init prog) := by
  have h0 : ∀ w : Frame → Nat, (∀ b, w (.run none b) = 0) → (w (.wpop false) = 0) → tot w (init prog).th = 0 := by
    intro w h1 h2
    unfold tot
    refine Finset.sum_eq_zero fun t _ => ?_
    unfold init
    dsimp only
    split <;> simp [h1, h2]
  constructor
  · intro j k; rw [h0 _ (by intro; rfl) rfl]; simp [init, Glob.init, b2n]
  · intro j; rw [h0 _ (by intro; rfl) rfl]; simp [init, Glob.init]
  · intro j; rw [h0 _ (by intro; rfl) rfl]; simp [init, Glob.init, b2n]
  · simp [init, Glob.init]
  · simp [init, Glob.init]

theorem count_spurious {s s' : State N} (C : Count s) (st : Spurious s s') : Count s' := by
  have H : ∀ (w : Frame → Nat), Blind w → tot w s'.th = tot w s.th := by
    intro w hw
    cases st with
    | caller t j rest ht =>
      have := tot_step w s.th t _ rest [.wait j .wakeLock] ht
      have h2 := hw.1 j .wakeLock .sleep
      simp at this ⊢; omega
    | worker t rest ht =>
      have := tot_step w s.th t _ rest [.wpop true] ht
      have h2 := hw.2 true
      simp at this ⊢; omega
  have hg : s'.g = s.g := by cases st <;> rfl
  exact ⟨fun j k => by rw [H _ (blind_task j k), hg]; exact C.task j k,
    fun j => by rw [H _ (blind_hold j), hg]; exact C.hold j,
    fun j => by rw [H _ (blind_own j), hg]; exact C.own j, by rw [hg]; exact C.ret, by rw [hg]; exact C.fresh⟩

theorem count_step {slot : Nat → Nat} {s s' : State N} (C : Count s) (st : Step slot s s') : Count s' := by
  cases st with
  | act t f rest fs g' w ht ha =>
  have hT := fun j k => tot_act slot (cTask j k) (blind_task j k) w s.th t f rest fs ht
  have hH := fun j => tot_act slot (cHold j) (blind_hold j) w s.th t f rest fs ht
  have hO := fun j => tot_act slot (cOwn j) (blind_own j) w s.th t f rest fs ht
  have cT := C.task
  have cH := C.hold
  have cO := C.own
  have cF := C.fresh
  have cR := C.ret
  refine ⟨?_, ?_, ?_, ?_, ?_⟩
  · intro j k
    specialize hT j k
    specialize cT j k
    dsimp only
    generalize tot (cTask j k) (fun u => _) = X at hT ⊢
    cases ha <;> simp only [List.map_cons, List.map_nil, List.sum_cons, List.sum_nil, cTask, oTask, countP_spawn_task] at hT ⊢
    case spawn k' m f' b' =>
      by_cases h : j = s.g.next
      · subst h
        have := (cF _ (le_refl _)).2.2
        generalize List.countP _ s.g.stack = Z at cT ⊢
        simp [upd, b2n, this] at hT cT ⊢
        split_ifs at hT ⊢ <;> omega
      · have h1 : j < s.g.next + 1 ↔ j < s.g.next := by omega
        have h2 : ¬ s.g.next = j := fun e => h e.symm
        simp [upd, b2n, h, h1, h2] at hT cT ⊢
        omega
    case submit => rw [List.countP_append]; omega
    case retSome j' k' =>
      by_cases h : j = j'
      · subst h
        by_cases h' : k = k'
        · subst h'
          simp [upd, b2n] at hT cT ⊢; omega
        · have h2 : ¬ k' = k := fun e => h' e.symm
          simp [upd, b2n, h', h2] at hT cT ⊢; omega
      · have h2 : ¬ j' = j := fun e => h e.symm
        simp [upd, b2n, h, h2] at hT cT ⊢; omega
    case waitPop j' x st' hs =>
      rw [hs, List.countP_cons] at cT
      simp only [b2n, decide_eq_true_eq] at hT cT ⊢
      omega
    case wpop na x st' hs =>
      rw [hs, List.countP_cons] at cT
      cases na <;>
      simp [b2n, cTask, oTask] at hT cT ⊢ <;>
      omega
    all_goals omega
  · intro j
    specialize hH j
    specialize cH j
    dsimp only
    generalize tot (cHold j) (fun u => _) = X at hH ⊢
    cases ha <;> simp only [List.map_cons, List.map_nil, List.sum_cons, List.sum_nil, cHold, oHold, countP_spawn_hold] at hH ⊢
    case spawn k' m f' b' =>
      by_cases h : j = s.g.next
      · subst h
        have := (cF _ (le_refl _)).1
        generalize List.countP _ s.g.stack = Z at cH ⊢
        simp [upd, b2n, this] at hH cH ⊢
        omega
      · have h2 : ¬ s.g.next = j := fun e => h e.symm
        simp [upd, b2n, h, h2] at hH cH ⊢
        omega
    case submit => rw [List.countP_append]; omega
    case decLast j' h1 =>
      by_cases h : j = j'
      · subst h; simp [upd, b2n] at hH cH ⊢; omega
      · have h2 : ¬ j' = j := fun e => h e.symm
        simp [upd, b2n, h, h2] at hH cH ⊢; omega
    case decMore j' h1 =>
      by_cases h : j = j'
      · subst h; simp [upd, b2n] at hH cH ⊢; omega
      · have h2 : ¬ j' = j := fun e => h e.symm
        simp [upd, b2n, h, h2] at hH cH ⊢; omega
    case waitPop j' x st' hs =>
      rw [hs, List.countP_cons] at cH
      simp only [b2n, decide_eq_true_eq] at hH cH ⊢
      omega
    case wpop na x st' hs =>
      rw [hs, List.countP_cons] at cH
      cases na <;>
      simp [b2n, cHold, oHold] at hH cH ⊢ <;>
      omega
    all_goals omega
  · intro j
    specialize hO j
    have cOj := cO j
    dsimp only
    generalize tot (cOwn j) (fun u => _) = X at hO ⊢
    cases ha <;> simp only [List.map_cons, List.map_nil, List.sum_cons, List.sum_nil, cOwn] at hO ⊢
    case spawn k' m f' b' =>
      by_cases h : j = s.g.next
      · subst h
        have := (cF _ (le_refl _)).2.1
        simp [b2n, this] at hO cOj ⊢
        omega
      · have h1 : j < s.g.next + 1 ↔ j < s.g.next := by omega
        have h2 : ¬ s.g.next = j := fun e => h e.symm
        simp [b2n, h1, h2] at hO cOj ⊢
        omega
    case waitDone j' h1 =>
      by_cases h : j = j'
      · subst h; simp only [upd, b2n, if_true] at hO cOj ⊢; simp; split_ifs at cOj <;> omega
      · have h2 : ¬ j' = j := fun e => h e.symm
        simp only [upd, b2n, h, h2, if_false] at hO cOj ⊢; omega
    case checkDone j' h1 =>
      by_cases h : j = j'
      · subst h; simp only [upd, b2n, if_true] at hO cOj ⊢; simp; split_ifs at cOj <;> omega
      · have h2 : ¬ j' = j := fun e => h e.symm
        simp only [upd, b2n, h, h2, if_false] at hO cOj ⊢; omega
    case wpop na x st' hs =>
      cases na <;>
      simp [cOwn] at hO ⊢ <;>
      omega
    all_goals omega
  · intro j hj
    have hown : ∀ p, f = .wait j p → s.g.returned j = false ∧ j < s.g.next := by
      intro p hf
      have := tot_pos_of_mem (cOwn j) s.th t f (by rw [ht]; simp)
      rw [cO j, hf] at this
      simp only [cOwn, b2n] at this
      split_ifs at this <;> simp_all
    have hhold := fun j => tot_pos_of_mem (cHold j) s.th t f (by rw [ht]; simp)
    cases ha <;> dsimp only at hj ⊢
    case spawn =>
      by_cases h : j = s.g.next
      · subst h; rw [(cF _ (le_refl _)).2.1] at hj; simp at hj
      · simp only [upd, h, if_false]; exact cR j hj
    case decLast j' h1 =>
      by_cases h : j = j'
      · subst h; simp [upd]; omega
      · simp only [upd, h, if_false]; exact cR j hj
    case decMore j' h1 =>
      by_cases h : j = j'
      · subst h; simp [upd]; have := cR j hj; omega
      · simp only [upd, h, if_false]; exact cR j hj
    case waitDone j' h1 =>
      by_cases h : j = j'
      · subst h; exact h1
      · simp only [upd, h, if_false] at hj; exact cR j hj
    case checkDone j' h1 =>
      by_cases h : j = j'
      · subst h; exact h1
      · simp only [upd, h, if_false] at hj; exact cR j hj
    all_goals exact cR j hj
  · intro j hj
    have hown : ∀ p q, f = .wait q p → q < s.g.next := by
      intro p q hf
      have := tot_pos_of_mem (cOwn q) s.th t f (by rw [ht]; simp)
      rw [cO q, hf] at this
      simp only [cOwn, b2n] at this
      split_ifs at this <;> simp_all
    cases ha <;> dsimp only at hj ⊢
    case spawn =>
      have h : ¬ j = s.g.next := by omega
      simp only [upd, h, if_false]; exact cF j (by omega)
    case decLast j' h1 =>
      by_cases h : j = j'
      · subst h; simp [upd]; have := cF j hj; omega
      · simp only [upd, h, if_false]; exact cF j hj
    case decMore j' h1 =>
      by_cases h : j = j'
      · subst h; have := cF j hj; simp [upd, this]
      · simp only [upd, h, if_false]; exact cF j hj
    case waitDone j' h1 =>
      have := hown _ _ rfl
      have h : ¬ j = j' := by omega
      simp only [upd, h, if_false]; exact cF j hj
    case checkDone j' h1 =>
      have := hown _ _ rfl
      have h : ¬ j = j' := by omega
      simp only [upd, h, if_false]; exact cF j hj
    all_goals exact cF j hj

end Verif.Parfor
