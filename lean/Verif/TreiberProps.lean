import Verif.Treiber
import Mathlib.Tactic.ByContra
import Mathlib.Tactic.Tauto
import Mathlib.Data.List.Nodup
import Mathlib.Logic.Relation
/-!
# C34: the lock-free stack is linearizable and neither loses nor duplicates nodes
-/
namespace Verif.Treiber

/-- The one place a node is at. -/
inductive Place where
  | nowhere
  | stack
  | chain (t : Thread)
  | hand (t : Thread)
  | own (t : Thread)
  deriving DecidableEq

def Linked (next : Addr → Addr) : Addr → List Addr → Prop
  | p, [] => p = 0
  | p, x :: l => p = x ∧ x ≠ 0 ∧ Linked next (next x) l

def chainOf : Phase → List Addr
  | .pushLoad ch => ch
  | .pushStore ch _ => ch
  | .pushCas ch _ => ch
  | _ => []

def handOf : Phase → Option Addr
  | .popDone r => r
  | _ => none

/-- What a phase knows about the head it read. -/
def Read (s : State) (s0 : Head) : Prop := s0.cnt ≤ s.head.cnt ∧ (s0.cnt = s.head.cnt → s0 = s.head)

/-- What holds of a thread, and what the atomic stack's thread is doing meanwhile. -/
def PhaseOk (s : State) : Phase → APhase → Prop
  | .idle, a => a = .idle
  | .pushLoad ch, a => a = .pushing ch
  | .pushStore ch s0, a => a = .pushing ch ∧ Read s s0
  | .pushCas ch s0, a => a = .pushing ch ∧ Read s s0 ∧ ∀ l, ch.getLast? = some l → s.next l = s0.ptr
  | .pushDone, a => a = .pushed
  | .popLoad, a => a = .popping
  | .popNext s0, a => Read s s0 ∧ if s0.ptr = 0 then a = .popped none else a = .popping
  | .popCas s0 n, a => a = .popping ∧ Read s s0 ∧ s0.ptr ≠ 0 ∧ (s0.cnt = s.head.cnt → n = s.next s0.ptr)
  | .popDone r, a => a = .popped r

structure R (s : State) (a : AState) (who : Addr → Place) : Prop where
  linked : Linked s.next s.head.ptr a.stack
  nodup : a.stack.Nodup
  stack : ∀ x, x ∈ a.stack ↔ who x = .stack
  chain : ∀ t x, x ∈ chainOf (s.th t) ↔ who x = .chain t
  hand : ∀ t x, handOf (s.th t) = some x ↔ who x = .hand t
  own : ∀ t x, x ∈ s.owns t ↔ who x = .own t
  wf : ∀ t, (chainOf (s.th t)).Nodup ∧ 0 ∉ chainOf (s.th t) ∧ Seg s.next (chainOf (s.th t))
  ne : ∀ t ch s0, s.th t = .pushLoad ch ∨ s.th t = .pushStore ch s0 ∨ s.th t = .pushCas ch s0 → ch ≠ []
  phase : ∀ t, PhaseOk s (s.th t) (a.th t)

theorem linked_upd (next : Addr → Addr) (l v : Addr) : ∀ (st : List Addr) (p : Addr), l ∉ st → Linked next p st →
    Linked (upd next l v) p st
  | [], p, _, h => h
  | x :: st, p, hl, h => by
    have hx : x ≠ l := fun e => hl (by simp [e])
    refine ⟨h.1, h.2.1, ?_⟩
    have : upd next l v x = next x := by simp [upd, hx]
    rw [this]
    exact linked_upd next l v st _ (fun h => hl (List.mem_cons_of_mem _ h)) h.2.2

theorem seg_upd (next : Addr → Addr) (l v : Addr) : ∀ (ch : List Addr), l ∉ ch → Seg next ch → Seg (upd next l v) ch
  | [], _, _ => trivial
  | [_], _, _ => trivial
  | x :: y :: r, hl, h => by
    have hx : x ≠ l := fun e => hl (by simp [e])
    exact ⟨by simp only [upd, hx, if_false]; exact h.1, seg_upd next l v (y :: r) (fun h => hl (List.mem_cons_of_mem _ h)) h.2⟩

theorem seg_upd_last (next : Addr → Addr) (l v : Addr) : ∀ (ch : List Addr), ch.Nodup → ch.getLast? = some l →
    Seg next ch → Seg (upd next l v) ch
  | [], _, _, _ => trivial
  | [_], _, _, _ => trivial
  | x :: y :: r, hn, hl, h => by
    have hl' : (y :: r).getLast? = some l := by simpa [List.getLast?_cons_cons] using hl
    have hx : x ≠ l := by
      rintro rfl
      exact (List.nodup_cons.1 hn).1 (List.mem_of_getLast? hl')
    exact ⟨by simp only [upd, hx, if_false]; exact h.1, seg_upd_last next l v (y :: r) (List.nodup_cons.1 hn).2 hl' h.2⟩

theorem linked_chain (next : Addr → Addr) (p : Addr) (st : List Addr) (hs : Linked next p st) :
    ∀ (ch : List Addr) (f : Addr), 0 ∉ ch → Seg next ch → (∀ l, ch.getLast? = some l → next l = p) → ch.head? = some f →
    Linked next f (ch ++ st)
  | [], _, _, _, _, hf => by simp at hf
  | [x], f, hz, _, hl, hf => by
    simp at hf; subst hf
    refine ⟨rfl, by rintro rfl; simp at hz, ?_⟩
    rw [hl x (by simp)]; exact hs
  | x :: y :: r, f, hz, h, hl, hf => by
    simp at hf; subst hf
    refine ⟨rfl, by rintro rfl; simp at hz, ?_⟩
    rw [h.1]
    exact linked_chain next p st hs (y :: r) y (fun h => hz (List.mem_cons_of_mem _ h)) h.2
      (fun l hl' => hl l (by rw [List.getLast?_cons_cons]; exact hl')) (by simp)

theorem read_head (s : State) : Read s s.head := ⟨le_refl _, fun _ => rfl⟩

/-- Changes that keep the head and only touch `next` of nodes outside the stack keep every thread's phase. -/
theorem phaseOk_next (s s' : State) (hh : s'.head = s.head) (p : Phase) (a : APhase) (h : PhaseOk s p a)
    (hl : ∀ l ch s0, p = .pushCas ch s0 → ch.getLast? = some l → s'.next l = s.next l)
    (hn : ∀ s0 n, p = .popCas s0 n → s0.cnt = s.head.cnt → s'.next s0.ptr = s.next s0.ptr) : PhaseOk s' p a := by
  cases p with
  | idle => exact h
  | pushLoad ch => exact h
  | pushStore ch s0 => exact ⟨h.1, by unfold Read; rw [hh]; exact h.2⟩
  | pushCas ch s0 =>
    exact ⟨h.1, by unfold Read; rw [hh]; exact h.2.1, fun l hl' => by rw [hl l ch s0 rfl hl']; exact h.2.2 l hl'⟩
  | pushDone => exact h
  | popLoad => exact h
  | popNext s0 => exact ⟨by unfold Read; rw [hh]; exact h.1, h.2⟩
  | popCas s0 n =>
    refine ⟨h.1, by unfold Read; rw [hh]; exact h.2.1, h.2.2.1, fun e => ?_⟩
    rw [hh] at e
    rw [hn s0 n rfl e]; exact h.2.2.2 e
  | popDone r => exact h

/-- When the head changes, what the other threads read becomes old. -/
theorem phaseOk_old (s s' : State) (hh : s'.head.cnt = s.head.cnt + 1) (p : Phase) (a : APhase) (h : PhaseOk s p a)
    (hn : s'.next = s.next) : PhaseOk s' p a := by
  have hr : ∀ s0, Read s s0 → Read s' s0 := by
    intro s0 h
    have := h.1
    exact ⟨by omega, fun e => by omega⟩
  cases p with
  | idle => exact h
  | pushLoad ch => exact h
  | pushStore ch s0 => exact ⟨h.1, hr _ h.2⟩
  | pushCas ch s0 => exact ⟨h.1, hr _ h.2.1, by rw [hn]; exact h.2.2⟩
  | pushDone => exact h
  | popLoad => exact h
  | popNext s0 => exact ⟨hr _ h.1, h.2⟩
  | popCas s0 n =>
    refine ⟨h.1, hr _ h.2.1, h.2.2.1, fun e => ?_⟩
    have := h.2.1.1
    omega
  | popDone r => exact h

/-- A thread's step that changes nothing but its own phase, between phases with the same chain and hand. -/
theorem r_local {s : State} {a : AState} {who : Addr → Place} (r : R s a who) (t : Thread) (p : Phase) (pa : APhase)
    (hc : chainOf p = chainOf (s.th t)) (hd : handOf p = handOf (s.th t)) (hp : PhaseOk s p pa)
    (hne : ∀ ch s0, p = .pushLoad ch ∨ p = .pushStore ch s0 ∨ p = .pushCas ch s0 → ch ≠ []) :
    R { s with th := upd s.th t p } { a with th := upd a.th t pa } who := by
  refine ⟨r.linked, r.nodup, r.stack, ?_, ?_, r.own, ?_, ?_, ?_⟩
  · intro u x
    dsimp only [upd]
    split
    · next e => subst e; rw [hc]; exact r.chain u x
    · exact r.chain u x
  · intro u x
    dsimp only [upd]
    split
    · next e => subst e; rw [hd]; exact r.hand u x
    · exact r.hand u x
  · intro u
    dsimp only [upd]
    split
    · next e => subst e; rw [hc]; exact r.wf u
    · exact r.wf u
  · intro u ch s0
    dsimp only [upd]
    split
    · exact hne ch s0
    · exact r.ne u ch s0
  · intro u
    dsimp only [upd]
    split
    · exact phaseOk_next s _ rfl _ _ hp (fun _ _ _ _ _ => rfl) (fun _ _ _ _ => rfl)
    · exact phaseOk_next s _ rfl _ _ (r.phase u) (fun _ _ _ _ _ => rfl) (fun _ _ _ _ => rfl)

theorem upd_self {β : Type} (f : Nat → β) (i : Nat) : upd f i (f i) = f := by
  funext x; unfold upd; split
  · next e => rw [e]
  · rfl

/-- One event of the atomic stack, with internal steps. -/
inductive AMany : Event → AState → AState → Prop where
  | zero (a) : AMany .tau a a
  | one {e a a'} : AStep e a a' → AMany e a a'
  | two {e a b c} : AStep e a b → AStep .tau b c → AMany e a c

/-- Forward simulation. -/
theorem simulate {M : Nat} {s s' : State} {e : Event} {a : AState} {who : Addr → Place} (r : R s a who) (fr : Fresh M s)
    (st : Step M e s s') : ∃ a' who', AMany e a a' ∧ R s' a' who' ∧ ∀ x, who x ≠ .nowhere ↔ who' x ≠ .nowhere := by
  cases st with
  | callPush _ t ch ht h0 hz hn ho hs =>
    have hp := r.phase t
    rw [ht] at hp
    refine ⟨_, fun x => if x ∈ ch then .chain t else who x, .one (.callPush a t ch hp), ?_, ?_⟩
    · have hown : ∀ x ∈ ch, who x = .own t := fun x hx => (r.own t x).1 (ho x hx)
      have hch : chainOf (s.th t) = [] := by rw [ht]; rfl
      refine ⟨r.linked, r.nodup, ?_, ?_, ?_, ?_, ?_, ?_, ?_⟩
      · intro x
        dsimp only
        rw [r.stack]
        by_cases hx : x ∈ ch
        · simp [hx, hown x hx]
        · simp [hx]
      · intro u x
        dsimp only [upd]
        by_cases hu : u = t
        · subst hu
          by_cases hx : x ∈ ch
          · simp [hx, chainOf]
          · simp only [if_true, chainOf, hx, if_false, false_iff]
            intro h
            have := (r.chain u x).2 h
            rw [hch] at this; simp at this
        · simp only [hu, if_false]
          rw [r.chain]
          by_cases hx : x ∈ ch
          · simp [hx, hown x hx]; exact fun h => hu h.symm
          · simp [hx]
      · intro u x
        have hh : handOf ((upd s.th t (.pushLoad ch)) u) = handOf (s.th u) := by
          unfold upd; split
          · next e => rw [e, ht]; rfl
          · rfl
        dsimp only
        rw [hh, r.hand]
        by_cases hx : x ∈ ch
        · simp [hx, hown x hx]
        · simp [hx]
      · intro u x
        dsimp only [upd]
        by_cases hu : u = t
        · subst hu
          by_cases hx : x ∈ ch
          · simp [hx]
          · simp [hx, r.own]
        · simp only [hu, if_false]
          rw [r.own]
          by_cases hx : x ∈ ch
          · simp [hx, hown x hx]; exact fun h => hu h.symm
          · simp [hx]
      · intro u
        dsimp only [upd]
        split
        · exact ⟨hn, hz, hs⟩
        · exact r.wf u
      · intro u ch' s0
        dsimp only [upd]
        split
        · rintro (h | h | h) <;> simp at h; subst h; exact h0
        · exact r.ne u ch' s0
      · intro u
        dsimp only [upd]
        split
        · exact rfl
        · exact phaseOk_next s _ rfl _ _ (r.phase u) (fun _ _ _ _ _ => rfl) (fun _ _ _ _ => rfl)
    · intro x
      dsimp only
      split
      · next hx => simp [(r.own t x).1 (ho x hx)]
      · rfl
  | pushLoad _ t ch ht =>
    have hp := r.phase t
    rw [ht] at hp
    refine ⟨a, who, .zero a, ?_, fun _ => Iff.rfl⟩
    have := r_local r t (.pushStore ch s.head) (a.th t) (by rw [ht]; rfl) (by rw [ht]; rfl) ⟨hp, read_head s⟩ (by
      rintro ch' s0 (h | h | h) <;> simp at h; obtain ⟨rfl, -⟩ := h; exact r.ne t ch s0 (Or.inl ht))
    rw [upd_self] at this; exact this
  | pushStore _ t ch s0 l ht hl =>
    have hp := r.phase t
    rw [ht] at hp
    refine ⟨a, who, .zero a, ?_, fun _ => Iff.rfl⟩
    have hwf := r.wf t
    rw [ht] at hwf
    have hlc : who l = .chain t := (r.chain t l).1 (by rw [ht]; exact List.mem_of_getLast? hl)
    have hls : l ∉ a.stack := by rw [r.stack, hlc]; simp
    have hcu : ∀ u, chainOf ((upd s.th t (.pushCas ch s0)) u) = chainOf (s.th u) := by
      intro u; unfold upd; split
      · next e => rw [e, ht]; rfl
      · rfl
    have hhu : ∀ u, handOf ((upd s.th t (.pushCas ch s0)) u) = handOf (s.th u) := by
      intro u; unfold upd; split
      · next e => rw [e, ht]; rfl
      · rfl
    refine ⟨linked_upd _ _ _ _ _ hls r.linked, r.nodup, r.stack, ?_, ?_, r.own, ?_, ?_, ?_⟩
    · intro u x; dsimp only; rw [hcu]; exact r.chain u x
    · intro u x; dsimp only; rw [hhu]; exact r.hand u x
    · intro u
      dsimp only
      rw [hcu]
      refine ⟨(r.wf u).1, (r.wf u).2.1, ?_⟩
      by_cases hu : u = t
      · subst hu
        rw [ht]
        exact seg_upd_last _ _ _ _ hwf.1 hl hwf.2.2
      · refine seg_upd _ _ _ _ ?_ (r.wf u).2.2
        rw [r.chain, hlc]; simp; exact fun h => hu h.symm
    · intro u ch' s1
      dsimp only [upd]
      split
      · rintro (h | h | h) <;> simp at h; obtain ⟨rfl, -⟩ := h; exact r.ne t ch s0 (Or.inr (Or.inl ht))
      · exact r.ne u ch' s1
    · intro u
      dsimp only [upd]
      split
      · next e =>
        subst e
        refine ⟨hp.1, hp.2, fun l' hl' => ?_⟩
        rw [hl] at hl'; simp at hl'; subst hl'; simp [upd]
      · next e =>
        refine phaseOk_next s { s with th := upd s.th t (.pushCas ch s0), next := upd s.next l s0.ptr } rfl _ _
          (r.phase u) ?_ ?_
        · intro l' ch' s1 hu hl'
          have : l' ≠ l := by
            rintro rfl
            have := (r.chain u l').1 (by rw [hu]; exact List.mem_of_getLast? hl')
            rw [hlc] at this; simp at this; exact e this.symm
          simp [upd, this]
        · intro s1 n hu hc
          have hph := r.phase u
          rw [hu] at hph
          have hs1 := hph.2.1.2 hc
          have hlk := r.linked
          have : s1.ptr ≠ l := by
            intro h
            rw [← hs1] at hlk
            cases hst : a.stack with
            | nil => rw [hst] at hlk; exact hph.2.2.1 hlk
            | cons y st =>
              rw [hst] at hlk
              have := hlk.1
              exact hls (by rw [hst, ← h, this]; simp)
          simp [upd, this]
  | pushCasOk _ t ch s0 f ht hf hc =>
    have hp := r.phase t
    rw [ht] at hp
    obtain ⟨hpa, hrd, hlast⟩ := hp
    have hwf := r.wf t
    rw [ht] at hwf
    have hcnt : s0.cnt = s.head.cnt := by
      rcases fr with h | h
      · have := hc.2; rw [h] at this; simp at this; exact this.symm
      · have h1 := h t s0 (Or.inl ⟨ch, ht⟩)
        have h2 := hrd.1
        have h3 := hc.2
        have h4 : (s.head.cnt - s0.cnt) % M = 0 := by
          have := Nat.sub_mod_eq_zero_of_mod_eq h3
          exact this
        have h5 := Nat.mod_eq_of_lt (show s.head.cnt - s0.cnt < M by omega)
        omega
    have hs0 := hrd.2 hcnt
    have hcs : ∀ x ∈ ch, who x = .chain t := fun x hx => (r.chain t x).1 (by rw [ht]; exact hx)
    refine ⟨_, fun x => if x ∈ ch then .stack else who x, .one (.push a t ch hpa), ?_, ?_⟩
    · refine ⟨?_, ?_, ?_, ?_, ?_, ?_, ?_, ?_, ?_⟩
      · dsimp only
        exact linked_chain _ _ _ r.linked ch f hwf.2.1 hwf.2.2 (by rw [← hs0]; exact hlast) hf
      · dsimp only
        rw [List.nodup_append]
        refine ⟨hwf.1, r.nodup, ?_⟩
        rintro x hx y hy rfl
        have := (r.stack x).1 hy
        rw [hcs x hx] at this; simp at this
      · intro x
        dsimp only
        rw [List.mem_append]
        by_cases hx : x ∈ ch
        · simp [hx]
        · simp [hx, r.stack]
      · intro u x
        dsimp only [upd]
        by_cases hu : u = t
        · subst hu
          simp only [if_true, chainOf, List.not_mem_nil, false_iff]
          by_cases hx : x ∈ ch
          · simp [hx]
          · simp only [hx, if_false]
            intro h
            have := (r.chain u x).2 h
            rw [ht] at this; exact hx this
        · simp only [hu, if_false]
          rw [r.chain]
          by_cases hx : x ∈ ch
          · simp [hx, hcs x hx]; exact fun h => hu h.symm
          · simp [hx]
      · intro u x
        have hh : handOf ((upd s.th t .pushDone) u) = handOf (s.th u) := by
          unfold upd; split
          · next e => rw [e, ht]; rfl
          · rfl
        dsimp only
        rw [hh, r.hand]
        by_cases hx : x ∈ ch
        · simp [hx, hcs x hx]
        · simp [hx]
      · intro u x
        dsimp only
        rw [r.own]
        by_cases hx : x ∈ ch
        · simp [hx, hcs x hx]
        · simp [hx]
      · intro u
        dsimp only [upd]
        split
        · exact ⟨List.nodup_nil, by simp [chainOf], trivial⟩
        · exact r.wf u
      · intro u ch' s1
        dsimp only [upd]
        split
        · simp
        · exact r.ne u ch' s1
      · intro u
        dsimp only [upd]
        split
        · exact rfl
        · exact phaseOk_old s _ rfl _ _ (r.phase u) rfl
    · intro x
      dsimp only
      split
      · next hx => simp [hcs x hx]
      · rfl
  | pushCasFail _ t ch s0 ht =>
    have hp := r.phase t
    rw [ht] at hp
    refine ⟨a, who, .zero a, ?_, fun _ => Iff.rfl⟩
    have := r_local r t (.pushStore ch s.head) (a.th t) (by rw [ht]; rfl) (by rw [ht]; rfl) ⟨hp.1, read_head s⟩ (by
      rintro ch' s1 (h | h | h) <;> simp at h; obtain ⟨rfl, -⟩ := h; exact r.ne t ch s0 (Or.inr (Or.inr ht)))
    rw [upd_self] at this; exact this
  | retPush _ t ht =>
    have hp := r.phase t
    rw [ht] at hp
    refine ⟨_, who, .one (.retPush a t hp), ?_, fun _ => Iff.rfl⟩
    exact r_local r t .idle .idle (by rw [ht]; rfl) (by rw [ht]; rfl) rfl (by simp)
  | callPop _ t ht =>
    have hp := r.phase t
    rw [ht] at hp
    refine ⟨_, who, .one (.callPop a t hp), ?_, fun _ => Iff.rfl⟩
    exact r_local r t .popLoad .popping (by rw [ht]; rfl) (by rw [ht]; rfl) rfl (by simp)
  | popLoad _ t ht =>
    have hp := r.phase t
    rw [ht] at hp
    by_cases hz : s.head.ptr = 0
    · have hemp : a.stack = [] := by
        have := r.linked
        cases hst : a.stack with
        | nil => rfl
        | cons y st => rw [hst] at this; exact absurd (this.1.symm.trans hz) this.2.1
      refine ⟨_, who, .one (.pop a t hp), ?_, fun _ => Iff.rfl⟩
      rw [hemp]
      have := r_local r t (.popNext s.head) (.popped none) (by rw [ht]; rfl) (by rw [ht]; rfl)
        ⟨read_head s, by rw [if_pos hz]⟩ (by simp)
      rw [hemp] at this; exact this
    · refine ⟨a, who, .zero a, ?_, fun _ => Iff.rfl⟩
      have := r_local r t (.popNext s.head) (a.th t) (by rw [ht]; rfl) (by rw [ht]; rfl)
        ⟨read_head s, by rw [if_neg hz]; exact hp⟩ (by simp)
      rw [upd_self] at this; exact this
  | popNull _ t s0 ht hz =>
    have hp := r.phase t
    rw [ht] at hp
    refine ⟨a, who, .zero a, ?_, fun _ => Iff.rfl⟩
    have h2 := hp.2
    rw [if_pos hz] at h2
    have := r_local r t (.popDone none) (a.th t) (by rw [ht]; rfl) (by rw [ht]; rfl) h2 (by simp)
    rw [upd_self] at this; exact this
  | popNext _ t s0 ht hz =>
    have hp := r.phase t
    rw [ht] at hp
    refine ⟨a, who, .zero a, ?_, fun _ => Iff.rfl⟩
    have h2 := hp.2
    rw [if_neg hz] at h2
    have := r_local r t (.popCas s0 (s.next s0.ptr)) (a.th t) (by rw [ht]; rfl) (by rw [ht]; rfl)
      ⟨h2, hp.1, hz, fun _ => rfl⟩ (by simp)
    rw [upd_self] at this; exact this
  | popCasOk _ t s0 n ht hc =>
    have hp := r.phase t
    rw [ht] at hp
    obtain ⟨hpa, hrd, hnz, hnx⟩ := hp
    have hcnt : s0.cnt = s.head.cnt := by
      rcases fr with h | h
      · have := hc.2; rw [h] at this; simp at this; exact this.symm
      · have h1 := h t s0 (Or.inr ⟨n, ht⟩)
        have h2 := hrd.1
        have h4 : (s.head.cnt - s0.cnt) % M = 0 := Nat.sub_mod_eq_zero_of_mod_eq hc.2
        have h5 := Nat.mod_eq_of_lt (show s.head.cnt - s0.cnt < M by omega)
        omega
    have hs0 := hrd.2 hcnt
    have hlk := r.linked
    obtain ⟨st, hst⟩ : ∃ st, a.stack = s0.ptr :: st := by
      rw [← hs0] at hlk
      cases hst : a.stack with
      | nil => rw [hst] at hlk; exact absurd hlk hnz
      | cons y st => rw [hst] at hlk; exact ⟨st, by rw [hlk.1]⟩
    have hxs : who s0.ptr = .stack := (r.stack _).1 (by rw [hst]; simp)
    have hnd := r.nodup
    rw [hst] at hnd
    have hstep := AStep.pop a t hpa
    rw [hst] at hstep
    refine ⟨_, fun x => if x = s0.ptr then .hand t else who x, .one hstep, ?_, ?_⟩
    · refine ⟨?_, ?_, ?_, ?_, ?_, ?_, ?_, ?_, ?_⟩
      · dsimp only
        rw [hst] at hlk
        rw [hnx hcnt]; exact hlk.2.2
      · exact (List.nodup_cons.1 hnd).2
      · intro x
        dsimp only [List.tail_cons]
        by_cases hx : x = s0.ptr
        · subst hx; simp; exact (List.nodup_cons.1 hnd).1
        · have := r.stack x
          rw [hst] at this
          simp only [hx, if_false, ← this, List.mem_cons, false_or]
      · intro u x
        have hcu : chainOf ((upd s.th t (.popDone (some s0.ptr))) u) = chainOf (s.th u) := by
          unfold upd; split
          · next e => rw [e, ht]; rfl
          · rfl
        dsimp only
        rw [hcu, r.chain]
        by_cases hx : x = s0.ptr
        · subst hx; simp [hxs]
        · simp [hx]
      · intro u x
        dsimp only [upd]
        by_cases hu : u = t
        · subst hu
          simp only [if_true, handOf, Option.some.injEq]
          by_cases hx : x = s0.ptr
          · simp [hx]
          · have : ¬ s0.ptr = x := fun e => hx e.symm
            simp only [hx, this, if_false, false_iff]
            intro h
            have := (r.hand u x).2 h
            rw [ht] at this; simp [handOf] at this
        · simp only [hu, if_false]
          rw [r.hand]
          by_cases hx : x = s0.ptr
          · simp [hx, hxs]; exact fun h => hu h.symm
          · simp [hx]
      · intro u x
        dsimp only
        rw [r.own]
        by_cases hx : x = s0.ptr
        · subst hx; simp [hxs]
        · simp [hx]
      · intro u
        dsimp only [upd]
        split
        · exact ⟨List.nodup_nil, by simp [chainOf], trivial⟩
        · exact r.wf u
      · intro u ch' s1
        dsimp only [upd]
        split
        · simp
        · exact r.ne u ch' s1
      · intro u
        dsimp only [upd]
        split
        · exact rfl
        · exact phaseOk_old s _ rfl _ _ (r.phase u) rfl
    · intro x
      dsimp only
      split
      · next hx => subst hx; simp [hxs]
      · rfl
  | popCasFail _ t s0 n ht =>
    have hp := r.phase t
    rw [ht] at hp
    by_cases hz : s.head.ptr = 0
    · have hemp : a.stack = [] := by
        have := r.linked
        cases hst : a.stack with
        | nil => rfl
        | cons y st => rw [hst] at this; exact absurd (this.1.symm.trans hz) this.2.1
      refine ⟨_, who, .one (.pop a t hp.1), ?_, fun _ => Iff.rfl⟩
      rw [hemp]
      have := r_local r t (.popNext s.head) (.popped none) (by rw [ht]; rfl) (by rw [ht]; rfl)
        ⟨read_head s, by rw [if_pos hz]⟩ (by simp)
      rw [hemp] at this; exact this
    · refine ⟨a, who, .zero a, ?_, fun _ => Iff.rfl⟩
      have := r_local r t (.popNext s.head) (a.th t) (by rw [ht]; rfl) (by rw [ht]; rfl)
        ⟨read_head s, by rw [if_neg hz]; exact hp.1⟩ (by simp)
      rw [upd_self] at this; exact this
  | retPop _ t res ht =>
    have hp := r.phase t
    rw [ht] at hp
    refine ⟨_, fun x => if res = some x then .own t else who x, .one (.retPop a t res hp), ?_, ?_⟩
    · have hh : ∀ x, res = some x → who x = .hand t := fun x hx => (r.hand t x).1 (by rw [ht]; exact hx)
      refine ⟨r.linked, r.nodup, ?_, ?_, ?_, ?_, ?_, ?_, ?_⟩
      · intro x
        dsimp only
        rw [r.stack]
        by_cases hx : res = some x
        · simp [hx, hh x hx]
        · simp [hx]
      · intro u x
        have hcu : chainOf ((upd s.th t .idle) u) = chainOf (s.th u) := by
          unfold upd; split
          · next e => rw [e, ht]; rfl
          · rfl
        dsimp only
        rw [hcu, r.chain]
        by_cases hx : res = some x
        · simp [hx, hh x hx]
        · simp [hx]
      · intro u x
        dsimp only [upd]
        by_cases hu : u = t
        · subst hu
          simp only [if_true, handOf, reduceCtorEq, false_iff]
          by_cases hx : res = some x
          · simp [hx]
          · simp only [hx, if_false]
            intro h
            have := (r.hand u x).2 h
            rw [ht] at this; exact hx this
        · simp only [hu, if_false]
          rw [r.hand]
          by_cases hx : res = some x
          · simp [hx, hh x hx]; exact fun h => hu h.symm
          · simp [hx]
      · intro u x
        dsimp only [upd]
        by_cases hu : u = t
        · subst hu
          by_cases hx : res = some x
          · simp [hx]
          · simp [hx, r.own]
        · simp only [hu, if_false]
          rw [r.own]
          by_cases hx : res = some x
          · simp [hx, hh x hx]; exact fun h => hu h.symm
          · simp [hx]
      · intro u
        dsimp only [upd]
        split
        · exact ⟨List.nodup_nil, by simp [chainOf], trivial⟩
        · exact r.wf u
      · intro u ch' s1
        dsimp only [upd]
        split
        · simp
        · exact r.ne u ch' s1
      · intro u
        dsimp only [upd]
        split
        · exact rfl
        · exact phaseOk_next s _ rfl _ _ (r.phase u) (fun _ _ _ _ _ => rfl) (fun _ _ _ _ => rfl)
    · intro x
      dsimp only
      split
      · next hx => simp [(r.hand t x).1 (by rw [ht]; exact hx)]
      · rfl
  | write _ t x v ho =>
    have hw := (r.own t x).1 ho
    refine ⟨a, who, .zero a, ?_, fun _ => Iff.rfl⟩
    have hxs : x ∉ a.stack := by rw [r.stack, hw]; simp
    refine ⟨linked_upd _ _ _ _ _ hxs r.linked, r.nodup, r.stack, r.chain, r.hand, r.own, ?_, r.ne, ?_⟩
    · intro u
      refine ⟨(r.wf u).1, (r.wf u).2.1, seg_upd _ _ _ _ ?_ (r.wf u).2.2⟩
      rw [r.chain, hw]; simp
    · intro u
      refine phaseOk_next s { s with next := upd s.next x v } rfl _ _ (r.phase u) ?_ ?_
      · intro l ch s0 hu hl
        have : l ≠ x := by
          rintro rfl
          have := (r.chain u l).1 (by rw [hu]; exact List.mem_of_getLast? hl)
          rw [hw] at this; simp at this
        simp [upd, this]
      · intro s1 n hu hc
        have hph := r.phase u
        rw [hu] at hph
        have hs1 := hph.2.1.2 hc
        have hlk := r.linked
        have : s1.ptr ≠ x := by
          intro h
          rw [← hs1] at hlk
          cases hst : a.stack with
          | nil => rw [hst] at hlk; exact hph.2.2.1 hlk
          | cons y st =>
            rw [hst] at hlk
            have := hlk.1
            exact hxs (by rw [hst, ← h, this]; simp)
        simp [upd, this]
  | give _ t u x ho htu =>
    have hw := (r.own t x).1 ho
    refine ⟨a, fun y => if y = x then .own u else who y, .zero a, ?_, ?_⟩
    · refine ⟨r.linked, r.nodup, ?_, ?_, ?_, ?_, r.wf, r.ne, ?_⟩
      · intro y
        rw [r.stack]
        by_cases hy : y = x
        · subst hy; simp [hw]
        · simp [hy]
      · intro v y
        dsimp only
        rw [r.chain]
        by_cases hy : y = x
        · subst hy; simp [hw]
        · simp [hy]
      · intro v y
        dsimp only
        rw [r.hand]
        by_cases hy : y = x
        · subst hy; simp [hw]
        · simp [hy]
      · intro v y
        dsimp only [upd]
        by_cases hv : v = u
        · subst hv
          by_cases hy : y = x
          · simp [hy]
          · simp [hy, r.own]
        · simp only [hv, if_false]
          by_cases hv' : v = t
          · subst hv'
            by_cases hy : y = x
            · simp [hy]; exact fun e => htu e.symm
            · simp [hy, r.own]
          · simp only [hv', if_false]
            rw [r.own]
            by_cases hy : y = x
            · subst hy; simp [hw]
              constructor
              · intro e; exact absurd e.symm hv'
              · intro e; exact absurd e.symm hv
            · simp [hy]
      · intro v
        exact phaseOk_next s _ rfl _ _ (r.phase v) (fun _ _ _ _ _ => rfl) (fun _ _ _ _ => rfl)
    · intro y
      dsimp only
      split
      · next hy => subst hy; simp [hw]
      · rfl

/-! ## C34 -/

/-- Nodes are distributed without overlap at the start. -/
def Disjoint0 (owns : Thread → Set Addr) : Prop := ∀ t u x, x ∈ owns t → x ∈ owns u → t = u

theorem r_init (owns : Thread → Set Addr) (hd : Disjoint0 owns) : ∃ who, R (init owns) AState.init who ∧
    ∀ x, who x ≠ .nowhere ↔ ∃ t, x ∈ owns t := by
  classical
  refine ⟨fun x => if h : ∃ t, x ∈ owns t then .own h.choose else .nowhere, ?_, ?_⟩
  · refine ⟨rfl, List.nodup_nil, ?_, ?_, ?_, ?_, ?_, ?_, ?_⟩
    · intro x; dsimp only [AState.init]; split <;> simp
    · intro t x; dsimp only [init, chainOf]; split <;> simp
    · intro t x; dsimp only [init, handOf]; split <;> simp
    · intro t x
      dsimp only [init]
      constructor
      · intro h
        have h' : ∃ t, x ∈ owns t := ⟨t, h⟩
        rw [dif_pos h']
        rw [hd _ _ x h'.choose_spec h]
      · intro h
        split at h
        · next h' => simp at h; rw [← h]; exact h'.choose_spec
        · simp at h
    · intro t; exact ⟨List.nodup_nil, by simp [init, chainOf], trivial⟩
    · intro t ch s0; simp [init]
    · intro t; rfl
  · intro x
    dsimp only
    split
    · next h => simp; exact h
    · next h => simp only [ne_eq, not_true, false_iff]; exact h

theorem visible_append (l₁ l₂ : List Event) : visible (l₁ ++ l₂) = visible l₁ ++ visible l₂ := by
  simp [visible]

theorem aexec_many {es : List Event} {e : Event} {a a' : AState} (h : AExec es a) (m : AMany e a a') :
    ∃ es', AExec es' a' ∧ visible es' = visible es ++ visible [e] := by
  cases m with
  | zero => exact ⟨es, h, by simp [visible]⟩
  | one st => exact ⟨es ++ [e], h.step st, visible_append _ _⟩
  | two s1 s2 => exact ⟨(es ++ [e]) ++ [.tau], (h.step s1).step s2, by rw [visible_append, visible_append]; simp [visible]⟩

theorem exec_sim {M : Nat} {owns : Thread → Set Addr} (hd : Disjoint0 owns) {es : List Event} {s : State}
    (x : Exec M owns true es s) : ∃ es' a who, AExec es' a ∧ visible es' = visible es ∧ R s a who ∧
      ∀ x, who x ≠ .nowhere ↔ ∃ t, x ∈ owns t := by
  induction x with
  | init =>
    obtain ⟨who, h1, h2⟩ := r_init owns hd
    exact ⟨[], _, who, .init, rfl, h1, h2⟩
  | step _ fr st ih =>
    obtain ⟨es', a, who, h1, h2, h3, h4⟩ := ih
    obtain ⟨a', who', m, h5, h6⟩ := simulate h3 (fr rfl) st
    obtain ⟨es'', h7, h8⟩ := aexec_many h1 m
    exact ⟨es'', a', who', h7, by rw [h8, h2, visible_append], h5, fun x => (h6 x).symm.trans (h4 x)⟩

/-- **C34, partial** (linearizability): as long as no operation is delayed by as many as `M` changes of the head between
reading it and its compare-exchange (`M` = 2^19 for the task stack; `M = 0`: tags that never wrap, no condition), every
execution's calls and returns are those of an execution of the atomic LIFO stack, in which each operation takes effect at
one moment between its call and its return.  What is missing: without the condition it is false, `aba_duplicates`. -/
theorem linearizable_partial {M : Nat} {owns : Thread → Set Addr} (hd : Disjoint0 owns) {es : List Event} {s : State}
    (x : Exec M owns true es s) : ∃ es' a, AExec es' a ∧ visible es' = visible es := by
  obtain ⟨es', a, -, h1, h2, -, -⟩ := exec_sim hd x
  exact ⟨es', a, h1, h2⟩

/-- With unbounded tags there is no condition. -/
theorem linearizable_unbounded {owns : Thread → Set Addr} (hd : Disjoint0 owns) {es : List Event} {s : State}
    (x : Exec 0 owns false es s) : ∃ es' a, AExec es' a ∧ visible es' = visible es := by
  refine linearizable_partial (M := 0) hd (es := es) (s := s) ?_
  induction x with
  | init => exact .init
  | step _ _ st ih => exact ih.step (fun _ => Or.inl rfl) st

/-- **C34, partial** No node is duplicated: under the same condition no node is ever with two threads at once, and no
thread has a node that another thread's pop is about to return. -/
theorem no_duplicates_partial {M : Nat} {owns : Thread → Set Addr} (hd : Disjoint0 owns) {es : List Event} {s : State}
    (x : Exec M owns true es s) :
    (∀ t u n, n ∈ s.owns t → n ∈ s.owns u → t = u) ∧
    (∀ t u n, n ∈ s.owns t → s.th u ≠ .popDone (some n)) ∧
    (∀ t u n, s.th t = .popDone (some n) → s.th u = .popDone (some n) → t = u) := by
  obtain ⟨es', a, who, -, -, r, -⟩ := exec_sim hd x
  refine ⟨?_, ?_, ?_⟩
  · intro t u n h1 h2
    have e1 := (r.own t n).1 h1
    have e2 := (r.own u n).1 h2
    rw [e1] at e2; simpa using e2
  · intro t u n h1 h2
    have e1 := (r.own t n).1 h1
    have e2 := (r.hand u n).1 (by rw [h2]; rfl)
    rw [e1] at e2; simp at e2
  · intro t u n h1 h2
    have e1 := (r.hand t n).1 (by rw [h1]; rfl)
    have e2 := (r.hand u n).1 (by rw [h2]; rfl)
    rw [e1] at e2; simpa using e2

/-- Following the links from the head. -/
inductive Chain (next : Addr → Addr) : Addr → Addr → Prop where
  | here {p : Addr} (h : p ≠ 0) : Chain next p p
  | there {p x : Addr} (h : p ≠ 0) : Chain next (next p) x → Chain next p x

theorem chain_of_linked (next : Addr → Addr) : ∀ (st : List Addr) (p x : Addr), Linked next p st → x ∈ st → Chain next p x
  | [], _, _, _, hx => by simp at hx
  | y :: st, p, x, h, hx => by
    obtain ⟨rfl, h0, h1⟩ := h
    rcases List.mem_cons.1 hx with rfl | hx
    · exact .here h0
    · exact .there h0 (chain_of_linked next st _ x h1 hx)

theorem linked_of_chain (next : Addr → Addr) {p x : Addr} (c : Chain next p x) : ∀ st, Linked next p st → x ∈ st := by
  induction c with
  | here h =>
    intro st hl
    cases st with
    | nil => exact absurd hl h
    | cons y st => rw [hl.1]; simp
  | there h _ ih =>
    intro st hl
    cases st with
    | nil => exact absurd hl h
    | cons y st =>
      obtain ⟨rfl, h0, h1⟩ := hl
      exact List.mem_cons_of_mem _ (ih st h1)

/-- **C34, partial** No node is lost: when no operation is under way, every node there ever was is either with a thread or
reachable from the head by the links, and not both; and no other node is. -/
theorem no_loss_partial {M : Nat} {owns : Thread → Set Addr} (hd : Disjoint0 owns) {es : List Event} {s : State}
    (x : Exec M owns true es s) (quiet : ∀ t, s.th t = .idle) (n : Addr) :
    ((∃ t, n ∈ owns t) ↔ (∃ t, n ∈ s.owns t) ∨ Chain s.next s.head.ptr n) ∧
    ¬ ((∃ t, n ∈ s.owns t) ∧ Chain s.next s.head.ptr n) := by
  obtain ⟨es', a, who, -, -, r, hw⟩ := exec_sim hd x
  have hin : Chain s.next s.head.ptr n ↔ who n = .stack := by
    rw [← r.stack]
    exact ⟨fun c => linked_of_chain _ c _ r.linked, fun h => chain_of_linked _ _ _ _ r.linked h⟩
  have hown : (∃ t, n ∈ s.owns t) ↔ ∃ t, who n = .own t := by
    constructor
    · rintro ⟨t, h⟩; exact ⟨t, (r.own t n).1 h⟩
    · rintro ⟨t, h⟩; exact ⟨t, (r.own t n).2 h⟩
  have hc : ∀ t, who n ≠ .chain t := by
    intro t h
    have := (r.chain t n).2 h
    rw [quiet t] at this; simp [chainOf] at this
  have hh : ∀ t, who n ≠ .hand t := by
    intro t h
    have := (r.hand t n).2 h
    rw [quiet t] at this; simp [handOf] at this
  rw [hin, hown, ← hw]
  constructor
  · cases h : who n <;> simp_all
  · rintro ⟨⟨t, h⟩, h'⟩; rw [h] at h'; simp at h'

/-- Lock-freedom: a compare-exchange that finds the head different from what it read shows that some other operation's
compare-exchange succeeded in the meantime. -/
theorem failed_cas_progress {M : Nat} {owns : Thread → Set Addr} (hd : Disjoint0 owns) {es : List Event} {s : State}
    (x : Exec M owns true es s) (t : Thread) (s0 : Head)
    (ht : (∃ ch, s.th t = .pushCas ch s0) ∨ ∃ n, s.th t = .popCas s0 n) (hne : s.head ≠ s0) : s0.cnt < s.head.cnt := by
  obtain ⟨es', a, who, -, -, r, -⟩ := exec_sim hd x
  have hp := r.phase t
  have hr : Read s s0 := by
    rcases ht with ⟨ch, ht⟩ | ⟨n, ht⟩
    · rw [ht] at hp; exact hp.2.1
    · rw [ht] at hp; exact hp.2.1
  rcases Nat.lt_or_ge s0.cnt s.head.cnt with h | h
  · exact h
  · exact absurd (hr.2 (le_antisymm hr.1 h)).symm hne

end Verif.Treiber
