import Verif.Par
import Verif.ParforBatch
/-! # par::each, par::zip, par::map: the result is the sequential one, whatever the schedule -/
namespace Verif.Par
open Verif.Parfor (Range ranges perBatchOf index_once)

variable {α β σ : Type}

/-! ## Specification -/

/-- The block, at index `i` with `a` there and its own variables `l`, ends with `a'` there. -/
inductive Visit.Runs (V : Visit α σ) (i : Nat) : α → σ → α → Prop where
  | over {a : α} {l : σ} : V.next i a l = none → V.Runs i a l a
  | step {a a' a'' : α} {l l' : σ} : V.next i a l = some (a', l') → V.Runs i a' l' a'' → V.Runs i a l a''

/-- The block alone at index `i`, called with `a` there, leaves `a'`. -/
def Visit.Gives (V : Visit α σ) (i : Nat) (a a' : α) : Prop := V.Runs i a (V.start i a) a'

/-- from one point of a block to another -/
inductive Visit.Goes (V : Visit α σ) (i : Nat) (a0 : α) : α → σ → Prop where
  | start : V.Goes i a0 a0 (V.start i a0)
  | step {a a' : α} {l l' : σ} : V.Goes i a0 a l → V.next i a l = some (a', l') → V.Goes i a0 a' l'

theorem Visit.Runs.one {V : Visit α σ} {i : Nat} {a a' a'' : α} {l : σ} (h : V.Runs i a l a') (h' : V.Runs i a l a'') : a' = a'' := by
  induction h with
  | over h => cases h' with
    | over _ => rfl
    | step h2 _ => rw [h] at h2; cases h2
  | step h _ ih => cases h' with
    | over h2 => rw [h] at h2; cases h2
    | step h2 h3 => rw [h] at h2; cases h2; exact ih h3

theorem Visit.Goes.gives {V : Visit α σ} {i : Nat} {a0 a : α} {l : σ} (h : V.Goes i a0 a l) : ∀ {a' : α}, V.Runs i a l a' → V.Gives i a0 a' := by
  induction h with
  | start => intro a' h; exact h
  | step _ h ih => intro a' h'; exact ih (.step h h')

/-! ## The invariant -/

/-- what is at an index of a batch: done, being done, or as it was -/
def At (V : Visit α σ) (cells0 cells : List α) (b : Batch σ) (x : Nat) : Prop :=
  if x < b.cur then ∃ a0 a, cells0[x]? = some a0 ∧ cells[x]? = some a ∧ V.Gives x a0 a
  else match x == b.cur, b.loc with
    | true, some l => ∃ a0 a, cells0[x]? = some a0 ∧ cells[x]? = some a ∧ V.Goes x a0 a l
    | _, _ => cells[x]? = cells0[x]?

structure Inv (V : Visit α σ) (rs : List Range) (n : Nat) (cells0 : List α) (s : St α σ) : Prop where
  len : s.cells.length = cells0.length
  count : s.batches.length = rs.length
  /-- each batch is within its range -/
  within : ∀ (k : Nat) (b : Batch σ) (r : Range), s.batches[k]? = some b → rs[k]? = some r →
    b.stop = r.stop ∧ r.start ≤ b.cur ∧ b.cur ≤ r.stop ∧ (b.loc ≠ none → b.cur < r.stop)
  at_ : ∀ (k : Nat) (b : Batch σ) (r : Range), s.batches[k]? = some b → rs[k]? = some r → ∀ x, r.start ≤ x → x < r.stop →
    At V cells0 s.cells b x
  rest : ∀ x, n ≤ x → s.cells[x]? = cells0[x]?

/-- ranges as `parallel_for` makes them -/
structure Split (rs : List Range) (n : Nat) : Prop where
  cover : ∀ x, x < n → ∃ (k : Nat) (r : Range), rs[k]? = some r ∧ r.start ≤ x ∧ x < r.stop
  apart : ∀ (k k' : Nat) (r r' : Range) (x : Nat), rs[k]? = some r → rs[k']? = some r' → r.start ≤ x → x < r.stop → r'.start ≤ x → x < r'.stop → k = k'
  bound : ∀ (k : Nat) (r : Range), rs[k]? = some r → r.start ≤ r.stop ∧ r.stop ≤ n

theorem split_ranges (workers n per : Nat) : Split (ranges workers n per) n := by
  obtain ⟨h1, h2⟩ := index_once workers n per
  have bound : ∀ (k : Nat) (r : Range), (ranges workers n per)[k]? = some r → r.start ≤ r.stop ∧ r.stop ≤ n :=
    fun k r h => h2 r (List.mem_of_getElem? h)
  refine ⟨fun x hx => ?_, fun k k' r r' x hk hk' a b c d => ?_, bound⟩
  · obtain ⟨i, ⟨a, b⟩, -⟩ := h1 x hx
    exact ⟨i, _, List.getElem?_eq_getElem i.2, a, b⟩
  · have hx : x < n := lt_of_lt_of_le b (bound k r hk).2
    obtain ⟨i, -, hu⟩ := h1 x hx
    obtain ⟨l1, e1⟩ := List.getElem?_eq_some_iff.1 hk
    obtain ⟨l2, e2⟩ := List.getElem?_eq_some_iff.1 hk'
    have u1 := hu ⟨k, l1⟩ (by simp only [Fin.getElem_fin, e1]; exact ⟨a, b⟩)
    have u2 := hu ⟨k', l2⟩ (by simp only [Fin.getElem_fin, e2]; exact ⟨c, d⟩)
    exact congrArg Fin.val (u1.trans u2.symm)

theorem At.lt {V : Visit α σ} {c0 c : List α} {b : Batch σ} {x : Nat} (h : At V c0 c b x) (hx : x < b.cur) :
    ∃ a0 a, c0[x]? = some a0 ∧ c[x]? = some a ∧ V.Gives x a0 a := by unfold At at h; rwa [if_pos hx] at h

theorem At.here {V : Visit α σ} {c0 c : List α} {b : Batch σ} {l : σ} (h : At V c0 c b b.cur) (hl : b.loc = some l) :
    ∃ a0 a, c0[b.cur]? = some a0 ∧ c[b.cur]? = some a ∧ V.Goes b.cur a0 a l := by
  unfold At at h; rw [if_neg (Nat.lt_irrefl _)] at h; simpa [hl] using h

theorem At.out {V : Visit α σ} {c0 c : List α} {b : Batch σ} {x : Nat} (h : At V c0 c b x) (hx : ¬ x < b.cur) (hl : b.loc = none ∨ x ≠ b.cur) :
    c[x]? = c0[x]? := by
  unfold At at h; rw [if_neg hx] at h
  rcases hl with hl | hl
  · cases hb : x == b.cur <;> simpa [hb, hl] using h
  · have : (x == b.cur) = false := by simpa using hl
    simpa [this] using h

theorem At.mk_lt {V : Visit α σ} {c0 c : List α} {b : Batch σ} {x : Nat} (hx : x < b.cur)
    (h : ∃ a0 a, c0[x]? = some a0 ∧ c[x]? = some a ∧ V.Gives x a0 a) : At V c0 c b x := by unfold At; rwa [if_pos hx]

theorem At.mk_here {V : Visit α σ} {c0 c : List α} {b : Batch σ} {x : Nat} {l : σ} (hx : x = b.cur) (hl : b.loc = some l)
    (h : ∃ a0 a, c0[x]? = some a0 ∧ c[x]? = some a ∧ V.Goes x a0 a l) : At V c0 c b x := by
  subst hx; unfold At; rw [if_neg (Nat.lt_irrefl _)]; simpa [hl] using h

theorem At.mk_out {V : Visit α σ} {c0 c : List α} {b : Batch σ} {x : Nat} (hx : ¬ x < b.cur) (hl : b.loc = none ∨ x ≠ b.cur)
    (h : c[x]? = c0[x]?) : At V c0 c b x := by
  unfold At; rw [if_neg hx]
  rcases hl with hl | hl
  · cases hb : x == b.cur <;> simpa [hl] using h
  · have : (x == b.cur) = false := by simpa using hl
    simpa [this] using h

/-- what is at an index depends on the batch and the cell there only -/
theorem At.congr {V : Visit α σ} {c0 c c' : List α} {b : Batch σ} {x : Nat} (h : At V c0 c b x) (e : c'[x]? = c[x]?) : At V c0 c' b x := by
  unfold At at h ⊢; rw [e]; exact h

theorem inv_begin (V : Visit α σ) (workers : Nat) (min : Int) (n : Nat) (cells : List α) :
    Inv V (ranges workers n (perBatchOf min)) n cells (begin workers min n cells) := by
  have hs := split_ranges workers n (perBatchOf min)
  have get : ∀ (k : Nat) (b : Batch σ) (r : Range), (begin (σ := σ) workers min n cells).batches[k]? = some b →
      (ranges workers n (perBatchOf min))[k]? = some r → b = ⟨r.start, r.stop, none⟩ := by
    intro k b r hb hr
    unfold begin at hb
    simp only [List.getElem?_map, hr, Option.map_some, Option.some.injEq] at hb
    exact hb.symm
  refine ⟨rfl, by simp [begin], ?_, ?_, fun _ _ => rfl⟩
  · intro k b r hb hr
    rw [get k b r hb hr]
    exact ⟨rfl, Nat.le_refl _, (hs.bound k r hr).1, fun h => absurd rfl h⟩
  · intro k b r hb hr x h1 _
    rw [get k b r hb hr]
    exact At.mk_out (Nat.not_lt.2 h1) (.inl rfl) rfl

theorem inv_step {V : Visit α σ} {rs : List Range} {n : Nat} {cells0 : List α} (hs : Split rs n) {s t : St α σ}
    (h : Inv V rs n cells0 s) (st : Step V s t) : Inv V rs n cells0 t := by
  have range : ∀ (k : Nat) (b : Batch σ), s.batches[k]? = some b → ∃ r, rs[k]? = some r := by
    intro k b hb
    obtain ⟨hk, _⟩ := List.getElem?_eq_some_iff.1 hb
    rw [h.count] at hk
    exact ⟨_, List.getElem?_eq_getElem hk⟩
  -- a step sets batch `k` to `b'` and the cell at its index
  have set : ∀ (k : Nat) (b b' : Batch σ) (c : List α), s.batches[k]? = some b → c.length = s.cells.length →
      (∀ x, x ≠ b.cur → c[x]? = s.cells[x]?) → b.cur < b.stop →
      (∀ r, rs[k]? = some r → b'.stop = r.stop ∧ r.start ≤ b'.cur ∧ b'.cur ≤ r.stop ∧ (b'.loc ≠ none → b'.cur < r.stop)) →
      (∀ r, rs[k]? = some r → ∀ x, r.start ≤ x → x < r.stop → At V cells0 c b' x) →
      Inv V rs n cells0 ⟨c, s.batches.set k b'⟩ := by
    intro k b b' c hb hc hx hcur hw ha
    obtain ⟨r, hr⟩ := range k b hb
    obtain ⟨w1, w2, w3, w4⟩ := h.within k b r hb hr
    have hk := (List.getElem?_eq_some_iff.1 hb).1
    refine ⟨hc.trans h.len, by simp [h.count], ?_, ?_, ?_⟩
    · intro k' b'' r' hb' hr'
      by_cases he : k = k'
      · subst he
        simp only [List.getElem?_set_self hk, Option.some.injEq] at hb'
        subst hb'
        exact hw r' hr'
      · rw [List.getElem?_set_ne he] at hb'
        exact h.within k' b'' r' hb' hr'
    · intro k' b'' r' hb' hr' x h1 h2
      by_cases he : k = k'
      · subst he
        simp only [List.getElem?_set_self hk, Option.some.injEq] at hb'
        subst hb'
        exact ha r' hr' x h1 h2
      · rw [List.getElem?_set_ne he] at hb'
        refine (h.at_ k' b'' r' hb' hr' x h1 h2).congr (hx x ?_)
        intro hxc
        exact he (hs.apart k k' r r' x hr hr' (by omega) (by omega) h1 h2)
    · intro x hx'
      have := (hs.bound k r hr).2
      exact (hx x (by omega)).trans (h.rest x hx')
  cases st with
  | enter k b a hb hl hc ha =>
    obtain ⟨r, hr⟩ := range k b hb
    obtain ⟨w1, w2, w3, w4⟩ := h.within k b r hb hr
    refine set k b _ s.cells hb rfl (fun _ _ => rfl) hc ?_ ?_
    · intro r' hr'
      rw [hr] at hr'; cases hr'
      exact ⟨w1, w2, w3, fun _ => by show b.cur < r.stop; omega⟩
    · intro r' hr' x h1 h2
      rw [hr] at hr'; cases hr'
      have hx := h.at_ k b r hb hr x h1 h2
      by_cases hlt : x < b.cur
      · exact .mk_lt hlt (hx.lt hlt)
      · by_cases heq : x = b.cur
        · subst heq
          have e := hx.out hlt (.inl hl)
          rw [ha] at e
          exact .mk_here rfl rfl ⟨a, a, e.symm, ha, .start⟩
        · exact .mk_out hlt (.inr heq) (hx.out hlt (.inr heq))
  | work k b a a' l l' hb hl ha hn =>
    obtain ⟨r, hr⟩ := range k b hb
    obtain ⟨w1, w2, w3, w4⟩ := h.within k b r hb hr
    have hcur := w4 (by rw [hl]; exact fun h => nomatch h)
    have hca := (List.getElem?_eq_some_iff.1 ha).1
    refine set k b _ (s.cells.set b.cur a') hb (List.length_set ..) (fun x hx => List.getElem?_set_ne (Ne.symm hx)) (by omega) ?_ ?_
    · intro r' hr'
      rw [hr] at hr'; cases hr'
      exact ⟨w1, w2, w3, fun _ => hcur⟩
    · intro r' hr' x h1 h2
      rw [hr] at hr'; cases hr'
      have hx := h.at_ k b r hb hr x h1 h2
      by_cases hlt : x < b.cur
      · exact .mk_lt hlt (by rw [List.getElem?_set_ne (by omega)]; exact hx.lt hlt)
      · by_cases heq : x = b.cur
        · subst heq
          obtain ⟨a0, a1, e0, e1, hg⟩ := hx.here hl
          rw [ha] at e1
          cases e1
          exact .mk_here rfl rfl ⟨a0, a', e0, List.getElem?_set_self hca, .step hg hn⟩
        · exact .mk_out hlt (.inr heq) (by rw [List.getElem?_set_ne (Ne.symm heq)]; exact hx.out hlt (.inr heq))
  | leave k b a l hb hl ha hn =>
    obtain ⟨r, hr⟩ := range k b hb
    obtain ⟨w1, w2, w3, w4⟩ := h.within k b r hb hr
    have hcur := w4 (by rw [hl]; exact fun h => nomatch h)
    refine set k b _ s.cells hb rfl (fun _ _ => rfl) (by omega) ?_ ?_
    · intro r' hr'
      rw [hr] at hr'; cases hr'
      exact ⟨w1, by show r.start ≤ b.cur + 1; omega, hcur, fun h => absurd rfl h⟩
    · intro r' hr' x h1 h2
      rw [hr] at hr'; cases hr'
      have hx := h.at_ k b r hb hr x h1 h2
      by_cases hlt : x < b.cur
      · exact .mk_lt (show x < b.cur + 1 by omega) (hx.lt hlt)
      · by_cases heq : x = b.cur
        · subst heq
          obtain ⟨a0, a1, e0, e1, hg⟩ := hx.here hl
          rw [ha] at e1
          cases e1
          exact .mk_lt (Nat.lt_succ_self _) ⟨a0, a, e0, ha, hg.gives (.over hn)⟩
        · exact .mk_out (show ¬ x < b.cur + 1 by omega) (.inl rfl) (hx.out hlt (.inr heq))

theorem inv {V : Visit α σ} {workers : Nat} {min : Int} {n : Nat} {cells : List α} {s : St α σ} (r : Reachable V workers min n cells s) :
    Inv V (ranges workers n (perBatchOf min)) n cells s := by
  induction r with
  | begin => exact inv_begin V workers min n cells
  | step _ st ih => exact inv_step (split_ranges _ _ _) ih st

/-! ## Theorems -/

/-- **When the call returns, each index has been visited exactly as if alone**: below `n` there is what the block, called there by
itself, gives; from `n` on what was there. However many threads, whatever the schedule and the batch size. -/
theorem over_cells {V : Visit α σ} {workers : Nat} {min : Int} {n : Nat} {cells : List α} {s : St α σ} (r : Reachable V workers min n cells s)
    (ho : Over s) : s.cells.length = cells.length ∧
      (∀ x, x < n → ∃ a0 a, cells[x]? = some a0 ∧ s.cells[x]? = some a ∧ V.Gives x a0 a) ∧
      (∀ x, n ≤ x → s.cells[x]? = cells[x]?) := by
  have h := inv r
  have hs := split_ranges workers n (perBatchOf min)
  refine ⟨h.len, fun x hx => ?_, h.rest⟩
  obtain ⟨k, rg, hk, h1, h2⟩ := hs.cover x hx
  have hkl := (List.getElem?_eq_some_iff.1 hk).1
  rw [← h.count] at hkl
  have hb := List.getElem?_eq_getElem hkl
  obtain ⟨w1, w2, w3, w4⟩ := h.within k _ rg hb hk
  obtain ⟨o1, o2⟩ := ho _ (List.mem_of_getElem? hb)
  exact (h.at_ k _ rg hb hk x h1 h2).lt (by omega)

/-- **The schedule does not matter**: two runs, with whatever numbers of threads and batch sizes, give the same. -/
theorem one_result {V : Visit α σ} {w w' : Nat} {m m' : Int} {n : Nat} {cells : List α} {s s' : St α σ} (r : Reachable V w m n cells s)
    (r' : Reachable V w' m' n cells s') (ho : Over s) (ho' : Over s') : s.cells = s'.cells := by
  obtain ⟨l, a, b⟩ := over_cells r ho
  obtain ⟨l', a', b'⟩ := over_cells r' ho'
  apply List.ext_getElem?
  intro x
  by_cases hx : x < n
  · obtain ⟨a0, a1, e0, e1, g⟩ := a x hx
    obtain ⟨a0', a1', e0', e1', g'⟩ := a' x hx
    rw [e0] at e0'; cases e0'
    rw [e1, e1', g.one g']
  · rw [b x (by omega), b' x (by omega)]

/-- **No two batches are ever at the same index**, and none is outside: what a block writes no other reads meanwhile. -/
theorem no_race {V : Visit α σ} {workers : Nat} {min : Int} {n : Nat} {cells : List α} {s : St α σ} (r : Reachable V workers min n cells s)
    (k k' : Nat) (b b' : Batch σ) (hb : s.batches[k]? = some b) (hb' : s.batches[k']? = some b') (hl : b.loc ≠ none) (hl' : b'.loc ≠ none) :
    b.cur < n ∧ (b.cur = b'.cur → k = k') := by
  have h := inv r
  have hs := split_ranges workers n (perBatchOf min)
  have get : ∀ (k : Nat) (b : Batch σ), s.batches[k]? = some b → ∃ r, (ranges workers n (perBatchOf min))[k]? = some r := by
    intro k b hb
    obtain ⟨hk, _⟩ := List.getElem?_eq_some_iff.1 hb
    rw [h.count] at hk
    exact ⟨_, List.getElem?_eq_getElem hk⟩
  obtain ⟨g, hg⟩ := get k b hb
  obtain ⟨g', hg'⟩ := get k' b' hb'
  obtain ⟨w1, w2, w3, w4⟩ := h.within k b g hb hg
  obtain ⟨v1, v2, v3, v4⟩ := h.within k' b' g' hb' hg'
  have := w4 hl
  have := v4 hl'
  have := (hs.bound k g hg).2
  exact ⟨by omega, fun e => hs.apart k k' g g' b.cur hg hg' (by omega) (by omega) (by omega) (by omega)⟩

/-- **It does not stop half way**: until it is over, each batch that is not through can go on (no index is outside the array). -/
theorem goes_on {V : Visit α σ} {workers : Nat} {min : Int} {n : Nat} {cells : List α} {s : St α σ} (r : Reachable V workers min n cells s)
    (hn : n ≤ cells.length) (k : Nat) (b : Batch σ) (hb : s.batches[k]? = some b) (ho : ¬ (b.loc = none ∧ ¬ b.cur < b.stop)) :
    ∃ t, Step V s t ∧ ∀ (j : Nat), j ≠ k → t.batches[j]? = s.batches[j]? := by
  have h := inv r
  have hs := split_ranges workers n (perBatchOf min)
  obtain ⟨hk, _⟩ := List.getElem?_eq_some_iff.1 hb
  rw [h.count] at hk
  have hg := List.getElem?_eq_getElem hk
  obtain ⟨w1, w2, w3, w4⟩ := h.within k b _ hb hg
  have hbd := (hs.bound k _ hg).2
  have other : ∀ (b' : Batch σ) (j : Nat), j ≠ k → (s.batches.set k b')[j]? = s.batches[j]? := fun b' j hj => List.getElem?_set_ne (Ne.symm hj)
  have cell : b.cur < (ranges workers n (perBatchOf min))[k].stop → ∃ a, s.cells[b.cur]? = some a := by
    intro hc
    exact ⟨_, List.getElem?_eq_getElem (by rw [h.len]; omega)⟩
  cases hl : b.loc with
  | none =>
    have hc : b.cur < b.stop := by by_contra hc; exact ho ⟨hl, hc⟩
    obtain ⟨a, ha⟩ := cell (by omega)
    exact ⟨_, .enter s k b a hb hl hc ha, other _⟩
  | some l =>
    obtain ⟨a, ha⟩ := cell (w4 (by rw [hl]; exact fun h => nomatch h))
    cases hx : V.next b.cur a l with
    | none => exact ⟨_, .leave s k b a l hb hl ha hx, other _⟩
    | some p => exact ⟨_, .work s k b a p.1 l p.2 hb hl ha hx, other _⟩

/-! ## map -/

/-- The block, at index `i` with `a` there, gives `r`. -/
inductive Fn.Runs (F : Fn α β σ) (i : Nat) (a : α) : σ → β → Prop where
  | result {l : σ} {r : β} : F.step i a l = .inr r → F.Runs i a l r
  | step {l l' : σ} {r : β} : F.step i a l = .inl l' → F.Runs i a l' r → F.Runs i a l r

def Fn.Gives (F : Fn α β σ) (i : Nat) (a : α) (r : β) : Prop := F.Runs i a (F.start i a) r

theorem map_gives (F : Fn α β σ) (i : Nat) {c c' : α × β} (h : (mapVisit F).Gives i c c') : c'.1 = c.1 ∧ F.Gives i c.1 c'.2 := by
  have key : ∀ {c c' : α × β} {l : Option σ}, (mapVisit F).Runs i c l c' → c'.1 = c.1 ∧ match l with
      | some l => F.Runs i c.1 l c'.2
      | none => c' = c := by
    intro c c' l h
    induction h with
    | @over a l h =>
      refine ⟨rfl, ?_⟩
      cases l with
      | none => rfl
      | some l => exfalso; simp only [mapVisit] at h; cases hf : F.step i a.1 l <;> rw [hf] at h <;> cases h
    | @step a a' a'' l l' h _ ih =>
      cases l with
      | none => cases h
      | some l =>
        simp only [mapVisit] at h
        cases hf : F.step i a.1 l with
        | inl l2 =>
          rw [hf] at h
          cases h
          exact ⟨ih.1, .step hf ih.2⟩
        | inr r =>
          rw [hf] at h
          cases h
          have e : a'' = (a.1, r) := ih.2
          subst e
          exact ⟨rfl, .result hf⟩
  exact key h

/-- **par::map gives what map gives**: as many results as there are items, each what the block gives for the item at its index; the
items are as they were. Whatever the threads, the schedule, the batch size, and what the results' memory held. -/
theorem map_result (F : Fn α β σ) {workers : Nat} {min : Int} {arr : List α} {junk : Nat → β} {s : St (α × β) (Option σ)}
    (r : Reachable (mapVisit F) workers min (eachEnd arr) (mapCells arr junk) s) (ho : Over s) :
    s.cells.map Prod.fst = arr ∧ (s.cells.map Prod.snd).length = arr.length ∧
    ∀ (i : Nat) (a : α), arr[i]? = some a → ∃ y, (s.cells.map Prod.snd)[i]? = some y ∧ F.Gives i a y := by
  obtain ⟨hl, hc, -⟩ := over_cells r ho
  have hm : (mapCells arr junk).length = arr.length := by simp [mapCells]
  have cell : ∀ (i : Nat) (a : α), arr[i]? = some a → ∃ y, s.cells[i]? = some (a, y) ∧ F.Gives i a y := by
    intro i a hi
    have hil := (List.getElem?_eq_some_iff.1 hi).1
    obtain ⟨c0, c, e0, e1, g⟩ := hc i hil
    have : c0 = (a, junk i) := by
      simp only [mapCells, List.getElem?_map, List.getElem?_zipIdx, hi, Option.map_some, Option.some.injEq, Nat.zero_add] at e0
      exact e0.symm
    subst this
    obtain ⟨h1, h2⟩ := map_gives F i g
    refine ⟨c.2, ?_, h2⟩
    rw [e1]
    exact congrArg some (Prod.ext h1 rfl)
  refine ⟨?_, by rw [List.length_map, hl, hm], ?_⟩
  · apply List.ext_getElem?
    intro i
    rw [List.getElem?_map]
    cases hi : arr[i]? with
    | none =>
      rw [List.getElem?_eq_none]; rfl
      rw [hl, hm]; exact List.getElem?_eq_none_iff.1 hi
    | some a =>
      obtain ⟨y, hy, _⟩ := cell i a hi
      rw [hy]; rfl
  · intro i a hi
    obtain ⟨y, hy, g⟩ := cell i a hi
    exact ⟨y, by rw [List.getElem?_map, hy]; rfl, g⟩

/-! ## zip -/

/-- **par::zip visits up to the shorter's length** and no further: the rest of the longer is as it was. -/
theorem zip_result {V : Visit (Option α × Option β) σ} {workers : Nat} {min : Int} {a : List α} {b : List β} {cells : List (Option α × Option β)}
    {s : St (Option α × Option β) σ} (r : Reachable V workers min (zipEnd a b) cells s) (ho : Over s) :
    (∀ x, x < a.length → x < b.length → ∃ c0 c, cells[x]? = some c0 ∧ s.cells[x]? = some c ∧ V.Gives x c0 c) ∧
    (∀ x, a.length ≤ x ∨ b.length ≤ x → s.cells[x]? = cells[x]?) := by
  obtain ⟨_, h1, h2⟩ := over_cells r ho
  unfold zipEnd at h1 h2
  exact ⟨fun x ha hb => h1 x (by omega), fun x h => h2 x (by omega)⟩

/-- **par::each visits every item** -/
theorem each_result {V : Visit α σ} {workers : Nat} {min : Int} {arr : List α} {s : St α σ}
    (r : Reachable V workers min (eachEnd arr) arr s) (ho : Over s) :
    s.cells.length = arr.length ∧ ∀ (i : Nat) (a : α), arr[i]? = some a → ∃ a', s.cells[i]? = some a' ∧ V.Gives i a a' := by
  obtain ⟨hl, h1, -⟩ := over_cells r ho
  refine ⟨hl, fun i a hi => ?_⟩
  obtain ⟨a0, a', e0, e1, g⟩ := h1 i (List.getElem?_eq_some_iff.1 hi).1
  rw [hi] at e0
  cases e0
  exact ⟨a', e1, g⟩

/-! ## A case -/

/-- `|ref v, i| v += i`, in two steps -/
def addIndex : Visit Nat (Option Nat) where
  start _ a := some a
  next i _ l := match l with
    | some v => some (v + i, none)
    | none => none

theorem addIndex_gives (i a : Nat) : addIndex.Gives i a (a + i) := .step rfl (.over rfl)

/-- two workers, batches of one: two items, their visits interleaved -/
example : ∃ s : St Nat (Option Nat), Reachable addIndex 2 1 (eachEnd [5, 6]) [5, 6] s ∧ Over s ∧ s.cells = [5, 7] := by
  have h0 : begin (σ := Option Nat) 2 1 2 [5, 6] = ⟨[5, 6], [⟨0, 1, none⟩, ⟨1, 2, none⟩]⟩ := rfl
  refine ⟨⟨[5, 7], [⟨1, 1, none⟩, ⟨2, 2, none⟩]⟩, ?_, ?_, rfl⟩
  · have r0 : Reachable addIndex 2 1 2 [5, 6] ⟨[5, 6], [⟨0, 1, none⟩, ⟨1, 2, none⟩]⟩ := h0 ▸ .begin
    have r1 := r0.step (.enter _ 0 ⟨0, 1, none⟩ 5 rfl rfl (by decide) rfl)
    have r2 := r1.step (.enter _ 1 ⟨1, 2, none⟩ 6 rfl rfl (by decide) rfl)
    have r3 := r2.step (.work _ 1 ⟨1, 2, some (some 6)⟩ 6 7 (some 6) none rfl rfl rfl rfl)
    have r4 := r3.step (.work _ 0 ⟨0, 1, some (some 5)⟩ 5 5 (some 5) none rfl rfl rfl rfl)
    have r5 := r4.step (.leave _ 1 ⟨1, 2, some none⟩ 7 none rfl rfl rfl rfl)
    exact r5.step (.leave _ 0 ⟨0, 1, some none⟩ 5 none rfl rfl rfl rfl)
  · intro b hb
    simp only [List.mem_cons, List.not_mem_nil, or_false] at hb
    rcases hb with rfl | rfl <;> exact ⟨rfl, by decide⟩

end Verif.Par
