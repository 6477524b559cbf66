import Verif.Arc
import Mathlib.Tactic.ByContra
import Mathlib.Tactic.Tauto
import Mathlib.Logic.Relation
/-!
# C35: a shared buffer is freed exactly once, by the last owner; C52: ordering of the last accesses
-/
namespace Verif.Arc

/-- The invariant of every interleaving. -/
structure Inv (s : State) : Prop where
  ne : s.mo ≠ []
  /-- the newest value counts the other handles -/
  count : s.live.Nonempty → ∀ m ∈ s.mo.head?, m.val = (s.live.card : Int) - 1
  nofree : s.live.Nonempty → s.freeing = none ∧ s.freed = 0
  once : (s.freeing.isSome → s.freed = 0) ∧ s.freed ≤ 1
  leak : s.live = ∅ → s.freeing.isSome ∨ s.freed = 1
  exl : s.excl ⊆ s.live
  exc : ∀ h ∈ s.excl, s.live = {h}
  /-- a zero that the user of a handle may still read is the newest value -/
  stale : ∀ h ∈ s.live, ∀ new m old, s.mo = new ++ m :: old → s.seen (s.own h) ≤ old.length → m.val = 0 → new = []
  /-- every access is published by the newest message or known to a live handle's user -/
  pub : s.live.Nonempty → ∀ a ∈ s.done, (∃ m ∈ s.mo.head?, a ∈ m.view) ∨ ∃ h ∈ s.live, a ∈ s.know (s.own h)
  last : ∀ h t, s.freeing = some (h, t, false) → s.done ⊆ s.know t

theorem inv_init (h : Handle) (t : Thread) : Inv (init h t) := by
  constructor <;> simp [init]
  intro new m old e _
  rcases new with _ | ⟨x, new⟩
  · rfl
  · simp at e

theorem know_mono_upd (f : Nat → Finset Access) (t : Nat) (x : Finset Access) (hx : f t ⊆ x) (i : Nat) :
    f i ⊆ upd f t x i := by
  unfold upd; split
  · next e => subst e; exact hx
  · exact fun _ h => h

theorem cons_eq_append {a m : Msg} {l new old : List Msg} (e : a :: l = new ++ m :: old) :
    (new = [] ∧ m = a ∧ old = l) ∨ ∃ new', new = a :: new' ∧ l = new' ++ m :: old := by
  rcases new with _ | ⟨x, new⟩
  · simp at e; left; exact ⟨rfl, e.1.symm, e.2.symm⟩
  · simp at e; right; exact ⟨new, by rw [e.1], e.2⟩

theorem inv_step {acq : Bool} {s s' : State} (I : Inv s) (st : Step acq s s') : Inv s' := by
  cases st with
  | copy h h' m r hm hl hf =>
    have hne : s.live.Nonempty := ⟨h, hl⟩
    have hc := I.count hne m (by simp [hm])
    have hh : h' ≠ h := fun e => hf (e ▸ hl)
    refine ⟨by simp, ?_, fun _ => I.nofree hne, ?_, ?_, ?_, ?_, ?_, ?_, ?_⟩
    · intro _ m' hm'
      simp at hm'
      subst hm'
      simp only [Finset.card_insert_of_notMem hf, hc]; omega
    · exact I.once
    · simp
    · exact (Finset.erase_subset _ _).trans (I.exl.trans (Finset.subset_insert _ _))
    · intro x hx
      have hx' := Finset.mem_erase.1 hx
      have := I.exc x hx'.2
      rw [this] at hl
      simp at hl; exact absurd hl.symm hx'.1
    · intro x hx new m' old e hs hv
      rcases cons_eq_append e with ⟨h1, -⟩ | ⟨new', h1, h2⟩
      · exact h1
      exfalso
      dsimp only at hs hx
      have hlen : old.length < s.mo.length := by rw [h2]; simp; omega
      have hx2 : x = h' ∨ x ∈ s.live := by simpa using hx
      have hown : upd s.own h' (s.own h) x ≠ s.own h := by
        intro e'
        rw [e'] at hs
        simp [upd] at hs; omega
      have hxl : x ∈ s.live ∧ x ≠ h' := by
        rcases hx2 with rfl | hx2
        · simp [upd] at hown
        · exact ⟨hx2, fun e => hf (e ▸ hx2)⟩
      have hox : upd s.own h' (s.own h) x = s.own x := by simp [upd, hxl.2]
      rw [hox] at hs hown
      simp only [upd, hown, if_false] at hs
      have hnew := I.stale x hxl.1 new' m' old h2 hs hv
      subst hnew
      rw [hm] at h2; simp at h2
      rw [← h2.1, hc] at hv
      have : s.live.card = 1 := by omega
      obtain ⟨y, hy⟩ := Finset.card_eq_one.1 this
      have h1 := hxl.1
      rw [hy] at hl h1
      simp at hl h1
      rw [h1, ← hl] at hown; exact hown rfl
    · intro _ a ha
      rcases I.pub hne a ha with ⟨m', hm', h1⟩ | ⟨x, hx, h1⟩
      · left; rw [hm] at hm'; simp at hm'; subst hm'; exact ⟨⟨m.val + 1, m.view⟩, by simp, h1⟩
      · right
        refine ⟨x, Finset.mem_insert_of_mem hx, ?_⟩
        have : x ≠ h' := fun e => hf (e ▸ hx)
        simpa [upd, this] using h1
    · intro x t e
      exact I.last x t e
  | move h t hl =>
    have hmono := know_mono_upd s.know t (s.know t ∪ s.know (s.own h)) Finset.subset_union_left
    refine ⟨I.ne, I.count, I.nofree, I.once, I.leak, I.exl, I.exc, ?_, ?_, ?_⟩
    · intro x hx new m old e hs hv
      refine I.stale x hx new m old e (le_trans ?_ hs) hv
      simp only [upd]
      by_cases h1 : x = h
      · subst h1; simp
      · simp only [h1, if_false]
        split
        · next e => rw [e]; exact le_max_left _ _
        · exact le_refl _
    · intro hne a ha
      rcases I.pub hne a ha with h1 | ⟨x, hx, h1⟩
      · exact Or.inl h1
      · right
        refine ⟨x, hx, ?_⟩
        dsimp only
        by_cases h2 : x = h
        · subst h2; simp [upd, h1]
        · have : upd s.own h t x = s.own x := by simp [upd, h2]
          rw [this]; exact hmono _ h1
    · intro x u e
      exact (I.last x u e).trans (hmono u)
  | access h a hl ha =>
    have hmono := know_mono_upd s.know (s.own h) (insert a (s.know (s.own h))) (Finset.subset_insert _ _)
    refine ⟨I.ne, I.count, I.nofree, I.once, I.leak, I.exl, I.exc, I.stale, ?_, ?_⟩
    · intro hne b hb
      dsimp only at hb
      rcases Finset.mem_insert.1 hb with rfl | hb
      · right; exact ⟨h, hl, by simp [upd]⟩
      · rcases I.pub hne b hb with h1 | ⟨x, hx, h1⟩
        · exact Or.inl h1
        · exact Or.inr ⟨x, hx, hmono _ h1⟩
    · intro x t e
      have := (I.nofree ⟨h, hl⟩).1
      dsimp only at e
      rw [this] at e; simp at e
  | drop h m r hm hl hx =>
    have hne : s.live.Nonempty := ⟨h, hl⟩
    have hc := I.count hne m (by simp [hm])
    have hcard := Finset.card_erase_of_mem hl
    have hpos : 0 < s.live.card := Finset.card_pos.2 hne
    have hmono := know_mono_upd s.know (s.own h) (s.know (s.own h) ∪ m.view) Finset.subset_union_left
    have hempty : m.val = 0 ↔ s.live.erase h = ∅ := by
      rw [← Finset.card_eq_zero, hcard, hc]; omega
    obtain ⟨hfr, hfd⟩ := I.nofree hne
    refine ⟨by simp, ?_, ?_, ?_, ?_, ?_, ?_, ?_, ?_, ?_⟩
    · intro hne' m' hm'
      simp at hm'; subst hm'
      simp only [hcard, hc]
      omega
    · intro hne'
      have : m.val ≠ 0 := fun e => (Finset.nonempty_iff_ne_empty.1 hne') (hempty.1 e)
      simp [this, hfr, hfd]
    · simp [hfd]
    · intro he
      left
      simp [hempty.2 he]
    · intro x hx'
      refine Finset.mem_erase.2 ⟨fun e => hx (e ▸ hx'), I.exl hx'⟩
    · intro x hx'
      have h1 := I.exc x hx'
      have h2 := hl
      rw [h1] at h2; simp at h2
      exact absurd (h2 ▸ hx') hx
    · intro x hx' new m' old e hs hv
      rcases cons_eq_append e with ⟨h1, -⟩ | ⟨new', h1, h2⟩
      · exact h1
      exfalso
      dsimp only at hs hx'
      have hxl := Finset.mem_erase.1 hx'
      have hlen : old.length < s.mo.length := by rw [h2]; simp; omega
      have hs' : s.seen (s.own x) ≤ old.length := by
        refine le_trans ?_ hs
        unfold upd; split
        · next e' =>
          rw [e'] at hs; simp [upd] at hs; omega
        · exact le_refl _
      have hnew := I.stale x hxl.2 new' m' old h2 hs' hv
      subst hnew
      rw [hm] at h2; simp at h2
      rw [← h2.1, hempty] at hv
      rw [hv] at hx'; simp at hx'
    · intro hne' a ha
      rcases I.pub hne a ha with ⟨m', hm', h1⟩ | ⟨x, hx', h1⟩
      · left; rw [hm] at hm'; simp at hm'; subst hm'
        exact ⟨_, by simp; rfl, by simp [h1]⟩
      · by_cases h2 : x = h
        · subst h2
          left; exact ⟨_, by simp; rfl, by simp [h1]⟩
        · right
          exact ⟨x, Finset.mem_erase.2 ⟨h2, hx'⟩, hmono _ h1⟩
    · intro x t e a ha
      dsimp only at e
      split at e
      · next hv =>
        simp only [Option.some.injEq, Prod.mk.injEq, and_true] at e
        obtain ⟨rfl, rfl⟩ := e
        rcases I.pub hne a ha with ⟨m', hm', h1⟩ | ⟨y, hy, h1⟩
        · rw [hm] at hm'; simp at hm'; subst hm'
          simp [upd, h1]
        · have hyh : y = h := by
            by_contra hy'
            have : y ∈ s.live.erase h := Finset.mem_erase.2 ⟨hy', hy⟩
            rw [hempty.1 hv] at this; simp at this
          subst hyh
          simp [upd, h1]
      · rw [hfr] at e; simp at e
  | test h new m old hm hl hs =>
    have hne : s.live.Nonempty := ⟨h, hl⟩
    have hmono : ∀ i, s.know i ⊆ (if acq then upd s.know (s.own h) (s.know (s.own h) ∪ m.view) else s.know) i := by
      intro i
      split
      · exact know_mono_upd s.know (s.own h) _ Finset.subset_union_left i
      · exact fun _ h => h
    have hsing : m.val = 0 → s.live = {h} := by
      intro hv
      have hnew := I.stale h hl new m old hm hs hv
      subst hnew
      have hc := I.count hne m (by simp [hm])
      have : s.live.card = 1 := by omega
      obtain ⟨y, hy⟩ := Finset.card_eq_one.1 this
      rw [hy] at hl ⊢
      simp at hl; rw [hl]
    refine ⟨I.ne, I.count, I.nofree, I.once, I.leak, ?_, ?_, ?_, ?_, ?_⟩
    · dsimp only
      split
      · intro x hx
        rcases Finset.mem_insert.1 hx with rfl | hx
        · exact hl
        · exact I.exl hx
      · exact I.exl
    · intro x hx
      dsimp only at hx
      split at hx
      · next hv =>
        rcases Finset.mem_insert.1 hx with rfl | hx
        · exact hsing hv
        · exact I.exc x hx
      · exact I.exc x hx
    · intro x hx new' m' old' e hs' hv
      refine I.stale x hx new' m' old' e (le_trans ?_ hs') hv
      dsimp only
      unfold upd; split
      · next e' => rw [e']; exact hs
      · exact le_refl _
    · intro _ a ha
      rcases I.pub hne a ha with h1 | ⟨x, hx, h1⟩
      · exact Or.inl h1
      · exact Or.inr ⟨x, hx, hmono _ h1⟩
    · intro x t e
      exact (I.last x t e).trans (hmono t)
  | dropUnique h hl hx =>
    have hs := I.exc h hx
    have he : s.live.erase h = ∅ := by rw [hs]; simp
    obtain ⟨hfr, hfd⟩ := I.nofree ⟨h, hl⟩
    refine ⟨I.ne, ?_, ?_, ?_, ?_, ?_, ?_, ?_, ?_, ?_⟩ <;> dsimp only
    · rw [he]; simp
    · rw [he]; simp
    · simp [hfd]
    · simp
    · exact Finset.erase_subset_erase _ I.exl
    · intro x hx'
      have := Finset.erase_subset_erase h I.exl hx'
      rw [he] at this; simp at this
    · rw [he]; simp
    · rw [he]; simp
    · simp
  | free h t b hf =>
    have hl : s.live = ∅ := by
      by_contra hne
      have := (I.nofree (Finset.nonempty_iff_ne_empty.2 hne)).1
      rw [hf] at this; simp at this
    have h0 := I.once.1 (by rw [hf]; rfl)
    have hex : s.excl = ∅ := Finset.subset_empty.1 (hl ▸ I.exl)
    refine ⟨I.ne, ?_, ?_, ?_, ?_, I.exl, I.exc, ?_, ?_, ?_⟩ <;> dsimp only <;> simp [hl, h0]

theorem inv_reachable {acq : Bool} {s : State} (r : Reachable acq s) : Inv s := by
  induction r with
  | init h t => exact inv_init h t
  | step _ st ih => exact inv_step ih st

/-! ## C35 -/

/-- **C35** The buffer is freed at most once, and never while a handle points to it (nor is a deallocation started). -/
theorem freed_once {acq : Bool} {s : State} (r : Reachable acq s) :
    s.freed ≤ 1 ∧ (s.freeing.isSome → s.freed = 0) ∧ (s.live.Nonempty → s.freed = 0 ∧ s.freeing = none) := by
  have I := inv_reachable r
  exact ⟨I.once.2, I.once.1, fun h => ⟨(I.nofree h).2, (I.nofree h).1⟩⟩

/-- **C35** No leak: when no handle is left, the buffer was freed or its last owner is freeing it. -/
theorem freed_last {acq : Bool} {s : State} (r : Reachable acq s) (h : s.live = ∅) : s.freeing.isSome ∨ s.freed = 1 :=
  (inv_reachable r).leak h

/-- **C35** A uniqueness test that answers yes proves sole ownership, even though it may read an old value of the count,
and the handle stays the sole owner until it is copied, so nobody else can be reading while it writes in place. -/
theorem unique_sole {acq : Bool} {s : State} (r : Reachable acq s) (h : Handle) (hx : h ∈ s.excl) : s.live = {h} :=
  (inv_reachable r).exc h hx

/-- **C35** The test at the moment it is made: whichever message not older than what the thread has seen it reads. -/
theorem unique_test {acq : Bool} {s : State} (r : Reachable acq s) (h : Handle) (hl : h ∈ s.live)
    (new : List Msg) (m : Msg) (old : List Msg) (hm : s.mo = new ++ m :: old) (hs : s.seen (s.own h) ≤ old.length)
    (h0 : m.val = 0) : s.live = {h} :=
  unique_sole (s := _) (Reachable.step r (Step.test s h new m old hm hl hs)) h (by simp [h0])

/-- **C35** A decrement frees exactly when the handle dropped was the last one. -/
theorem drop_frees_iff {acq : Bool} {s : State} (r : Reachable acq s) (h : Handle) (hl : h ∈ s.live) (m : Msg)
    (hm : s.mo.head? = some m) : m.val = 0 ↔ s.live.erase h = ∅ := by
  have hc := (inv_reachable r).count ⟨h, hl⟩ m hm
  have := Finset.card_erase_of_mem hl
  have hpos : 0 < s.live.card := Finset.card_pos.2 ⟨h, hl⟩
  rw [← Finset.card_eq_zero, this, hc]; omega

/-- **C35** The assertion in `decr` (include/fu/mem/arc.h:51-53) never fires: the count is never negative at a drop. -/
theorem drop_assert {acq : Bool} {s : State} (r : Reachable acq s) (hl : s.live.Nonempty) (m : Msg)
    (hm : s.mo.head? = some m) : 0 ≤ m.val := by
  have hc := (inv_reachable r).count hl m hm
  have hpos : 0 < s.live.card := Finset.card_pos.2 hl
  omega

/-- Progress: in every reachable state with a live handle, that handle can be dropped (no state is stuck). -/
theorem can_drop {acq : Bool} {s : State} (r : Reachable acq s) (h : Handle) (hl : h ∈ s.live) :
    ∃ s', Step acq s s' ∧ s'.live = s.live.erase h := by
  by_cases hx : h ∈ s.excl
  · exact ⟨_, Step.dropUnique s h hl hx, rfl⟩
  · rcases hm : s.mo with _ | ⟨m, rest⟩
    · exact absurd hm (inv_reachable r).ne
    · exact ⟨_, Step.drop s h m rest hm hl hx, rfl⟩

/-- **C35** From every reachable state the buffer can still be (and, when all handles are dropped, is) freed. -/
theorem can_free {acq : Bool} {s : State} (r : Reachable acq s) :
    ∃ s', Relation.ReflTransGen (Step acq) s s' ∧ s'.freed = 1 := by
  have main : ∀ n, ∀ s, Reachable acq s → s.live.card = n →
      ∃ s', Relation.ReflTransGen (Step acq) s s' ∧ s'.freed = 1 := by
    intro n
    induction n with
    | zero =>
      intro s r hn
      have he := Finset.card_eq_zero.1 hn
      rcases freed_last r he with hf | hf
      · obtain ⟨⟨h, t, b⟩, hf'⟩ := Option.isSome_iff_exists.1 hf
        refine ⟨_, Relation.ReflTransGen.single (Step.free s h t b hf'), ?_⟩
        simp [(inv_reachable r).once.1 hf]
      · exact ⟨s, .refl, hf⟩
    | succ n ih =>
      intro s r hn
      obtain ⟨h, hl⟩ := Finset.card_pos.1 (show 0 < s.live.card by omega)
      obtain ⟨s', st, hs'⟩ := can_drop r h hl
      obtain ⟨s'', h1, h2⟩ := ih s' (r.step st) (by rw [hs', Finset.card_erase_of_mem hl, hn]; rfl)
      exact ⟨s'', Relation.ReflTransGen.head st h1, h2⟩
  exact main _ s r rfl

/-! ## C52 -/

/-- **C52** (holds) A deallocation started by the count comes after every access anybody ever made to the buffer. -/
theorem free_after_all_accesses {acq : Bool} {s : State} (r : Reachable acq s) (h : Handle) (t : Thread)
    (hf : s.freeing = some (h, t, false)) : s.done ⊆ s.know t :=
  (inv_reachable r).last h t hf

/-- With an acquire load in `unique()`: the sole owner knows of every access. -/
structure InvA (s : State) : Prop where
  kn : ∀ h ∈ s.excl, s.done ⊆ s.know (s.own h)
  fr : ∀ h t b, s.freeing = some (h, t, b) → s.done ⊆ s.know t

theorem invA_step {s s' : State} (I : Inv s) (A : InvA s) (st : Step true s s') : InvA s' := by
  cases st with
  | copy h h' m r hm hl hf =>
    refine ⟨?_, A.fr⟩
    intro x hx
    have hx' := Finset.mem_erase.1 hx
    have := I.exc x hx'.2
    rw [this] at hl; simp at hl; exact absurd hl.symm hx'.1
  | move h t hl =>
    have hmono := know_mono_upd s.know t (s.know t ∪ s.know (s.own h)) Finset.subset_union_left
    refine ⟨?_, fun x u b e => (A.fr x u b e).trans (hmono u)⟩
    intro x hx
    have h1 := A.kn x hx
    dsimp only
    by_cases h2 : x = h
    · subst h2
      intro a ha; simp [upd, h1 ha]
    · have : upd s.own h t x = s.own x := by simp [upd, h2]
      rw [this]; exact h1.trans (hmono _)
  | access h a hl ha =>
    refine ⟨?_, ?_⟩
    · intro x hx b hb
      have h1 := I.exc x hx
      rw [h1] at hl; simp at hl; subst hl
      rcases Finset.mem_insert.1 hb with rfl | hb
      · simp [upd]
      · simp [upd, A.kn _ hx hb]
    · intro x t b e
      have := (I.nofree ⟨h, hl⟩).1
      dsimp only at e
      rw [this] at e; simp at e
  | drop h m r hm hl hx =>
    have I' := inv_step I (Step.drop (acq := true) s h m r hm hl hx)
    refine ⟨?_, ?_⟩
    · intro x hx'
      have h1 := I.exc x hx'
      rw [h1] at hl; simp at hl
      exact absurd (hl ▸ hx') hx
    · intro x t b e
      cases b
      · exact I'.last x t e
      · have := (I.nofree ⟨h, hl⟩).1
        dsimp only at e
        split at e
        · simp at e
        · rw [this] at e; simp at e
  | test h new m old hm hl hs =>
    have hmono := know_mono_upd s.know (s.own h) (s.know (s.own h) ∪ m.view) Finset.subset_union_left
    have r' := inv_step I (Step.test (acq := true) s h new m old hm hl hs)
    refine ⟨?_, fun x t b e => (A.fr x t b e).trans (hmono t)⟩
    intro x hx
    dsimp only at hx ⊢
    simp only [if_true]
    split at hx
    · next hv =>
      rcases Finset.mem_insert.1 hx with rfl | hx
      · have hnew := I.stale x hl new m old hm hs hv
        subst hnew
        have hsing := r'.exc x (by simp [hv])
        dsimp only at hsing
        intro a ha
        rcases I.pub ⟨x, hl⟩ a ha with ⟨m', hm', h1⟩ | ⟨y, hy, h1⟩
        · rw [hm] at hm'; simp at hm'; subst hm'
          simp [upd, h1]
        · rw [hsing] at hy; simp at hy; subst hy
          simp [upd, h1]
      · exact (A.kn x hx).trans (hmono _)
    · exact (A.kn x hx).trans (hmono _)
  | dropUnique h hl hx =>
    refine ⟨fun x hx' => A.kn x (Finset.mem_of_mem_erase hx'), ?_⟩
    intro x t b e
    simp only [Option.some.injEq, Prod.mk.injEq] at e
    obtain ⟨-, rfl, -⟩ := e
    exact A.kn h hx
  | free h t b hf =>
    exact ⟨A.kn, by simp⟩

/-- **C52, partial**: were the load in `unique()` an acquire load, every access made through any handle would be ordered
before whatever the sole owner does next (writing in place, or freeing).  What is missing: the code's load is relaxed,
and then the property is false, see `unique_relaxed_race`. -/
theorem unique_ordered_partial {s : State} (r : Reachable true s) :
    (∀ h ∈ s.excl, s.done ⊆ s.know (s.own h)) ∧ (∀ h t b, s.freeing = some (h, t, b) → s.done ⊆ s.know t) := by
  have : Inv s ∧ InvA s := by
    induction r with
    | init h t => exact ⟨inv_init h t, by constructor <;> simp [init]⟩
    | step _ st ih => exact ⟨inv_step ih.1 st, invA_step ih.1 ih.2 st⟩
  exact ⟨this.2.kn, this.2.fr⟩

/-- **C52, refuted for the code** With the relaxed load of include/fu/mem/arc.h:59 the sole owner may free (or write) the
buffer although another thread's earlier read is not ordered before: thread 0 copies its vector to thread 1, which reads
it and drops it; thread 0 then tests uniqueness and frees. -/
theorem unique_relaxed_race :
    ∃ s : State, Reachable false s ∧ (∃ h ∈ s.excl, ¬ s.done ⊆ s.know (s.own h)) ∧
      ∃ s', Step false s s' ∧ ∃ h t, s'.freeing = some (h, t, true) ∧ ¬ s'.done ⊆ s'.know t := by
  have r0 : Reachable false (init 0 0) := .init 0 0
  have r1 := r0.step (Step.copy _ 0 1 ⟨0, ∅⟩ [] rfl (by simp [init]) (by simp [init]))
  have r2 := r1.step (Step.move _ 1 1 (by simp [init]))
  have r3 := r2.step (Step.access _ 1 7 (by simp [init]) (by simp [init]))
  have r4 := r3.step (Step.drop _ 1 ⟨1, ∅⟩ [⟨0, ∅⟩] (by simp [init]) (by simp [init]) (by simp [init]))
  have r5 := r4.step (Step.test _ 0 [] _ _ rfl (by simp [init]) (by simp [init, upd]))
  refine ⟨_, r5, ⟨0, by simp [init], by simp [init, upd]⟩, _, Step.dropUnique _ 0 (by simp [init]) (by simp [init]), 0, 0, ?_, ?_⟩
  · simp [init, upd]
  · simp [init, upd]

/-- The hypotheses are met: a reachable state with two handles of different threads. -/
example : ∃ s : State, Reachable false s ∧ s.live = {0, 1} ∧ s.own 0 ≠ s.own 1 := by
  have r1 := (Reachable.init (acq := false) 0 0).step (Step.copy _ 0 1 ⟨0, ∅⟩ [] rfl (by simp [init]) (by simp [init]))
  have r2 := r1.step (Step.move _ 1 1 (by simp [init]))
  exact ⟨_, r2, by ext; simp [init]; tauto, by simp [init, upd]⟩

end Verif.Arc
