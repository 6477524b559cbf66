import Verif.VecCells
import Verif.AllocProps
/-! The representation invariant of the vector model and its preservation by the building blocks of `_Splice`. -/
namespace Verif.Vec
open Verif.Pack (Cfg)
variable {α : Type}

/-- does header `v` hold a reference to block `b`? -/
def owns (b : Nat) : Hdr α → Bool
  | .small _ _ => false
  | .big b' _ _ _ => b' == b

/-- The type configurations C++ allows. -/
structure Valid (cfg : Cfg) : Prop where
  sz_pos : 0 < cfg.sz
  sz_lt : cfg.sz < 2 ^ 31

theorem smallCapa_nontrivial {cfg : Cfg} (h : cfg.trivial = false) : cfg.smallCapa = 0 := by
  unfold Cfg.smallCapa; simp [h]

theorem smallCapa_le (cfg : Cfg) : cfg.smallCapa ≤ 15 := by
  unfold Cfg.smallCapa; split
  · exact Nat.div_le_self 15 cfg.sz
  · omega

/-- Per-header part of the invariant (everything but the construction state of the slots). -/
def Shape (cfg : Cfg) (h : Heap α) : Hdr α → Prop
  | .small n cs => cs.length = cfg.smallCapa ∧ n ≤ cfg.smallCapa
  | .big b n c s => ∃ blk, h.blk b = some blk ∧ blk.cells.length = c ∧ n ≤ c ∧ cfg.smallCapa < c ∧ c < 2 ^ 31 ∧
      (s = false → blk.arc = 0) ∧ (cfg.copiable = false → s = false)

/-- Invariant of the heap together with the list of all live headers. -/
structure Core (cfg : Cfg) (h : Heap α) (vs : List (Hdr α)) : Prop where
  shape : ∀ v ∈ vs, Shape cfg h v
  count : ∀ b blk, h.blk b = some blk → vs.countP (owns b) = blk.arc + 1
  fresh : ∀ b, h.next ≤ b → h.blk b = none

/-- Construction state: non-trivial items live exactly in the first `size` slots. -/
def Cont (cfg : Cfg) (h : Heap α) (v : Hdr α) : Prop :=
  cfg.trivial = false → ∀ cs, cellsOf h v = some cs → allSome (cs.take v.size) = true ∧ allNone (cs.drop v.size) = true

/-- The full invariant. -/
def Inv (cfg : Cfg) (h : Heap α) (vs : List (Hdr α)) : Prop := Core cfg h vs ∧ ∀ v ∈ vs, Cont cfg h v

/-- What a program can observe of a header: its items. -/
def items (h : Heap α) (v : Hdr α) : Cells α := ((cellsOf h v).getD []).take v.size

/-- The heap change is invisible to the other headers. -/
def Frame (h h' : Heap α) (os : List (Hdr α)) : Prop := ∀ o ∈ os, cellsOf h' o = cellsOf h o

theorem Frame.refl (h : Heap α) (os) : Frame h h os := fun _ _ => rfl
theorem Frame.trans {h h' h'' : Heap α} {os} (a : Frame h h' os) (b : Frame h' h'' os) : Frame h h'' os :=
  fun o ho => (b o ho).trans (a o ho)
theorem Frame.items {h h' : Heap α} {os} (a : Frame h h' os) {o} (ho : o ∈ os) : items h' o = items h o := by
  unfold Vec.items; rw [a o ho]
theorem Frame.cont {cfg : Cfg} {h h' : Heap α} {os} (a : Frame h h' os) {o} (ho : o ∈ os) (hc : Cont cfg h o) :
    Cont cfg h' o := by
  unfold Cont; rw [a o ho]; exact hc
theorem Frame.tail {h h' : Heap α} {v os} (a : Frame h h' (v :: os)) : Frame h h' os :=
  fun o ho => a o (List.mem_cons_of_mem _ ho)

theorem Core.perm {cfg : Cfg} {h : Heap α} {vs ws} (p : vs.Perm ws) (c : Core cfg h vs) : Core cfg h ws :=
  ⟨fun v hv => c.shape v (p.symm.subset hv), fun b blk hb => by rw [← p.countP_eq]; exact c.count b blk hb, c.fresh⟩

theorem Inv.perm {cfg : Cfg} {h : Heap α} {vs ws} (p : vs.Perm ws) (c : Inv cfg h vs) : Inv cfg h ws :=
  ⟨c.1.perm p, fun v hv => c.2 v (p.symm.subset hv)⟩

@[simp] theorem set_blk_self (h : Heap α) (b x) : (h.set b x).blk b = x := by simp [Heap.set]
theorem set_blk_ne (h : Heap α) {b b' : Nat} (x) (hne : b' ≠ b) : (h.set b x).blk b' = h.blk b' := by
  simp [Heap.set, hne]
@[simp] theorem set_next (h : Heap α) (b x) : (h.set b x).next = h.next := rfl

theorem cellsOf_set_ne {h : Heap α} {b x} {o : Hdr α} (ho : owns b o = false) : cellsOf (h.set b x) o = cellsOf h o := by
  cases o with
  | small => rfl
  | big b' n c s =>
    have : b' ≠ b := by simpa [owns] using ho
    unfold cellsOf; simp only; rw [set_blk_ne _ _ this]

theorem shape_set_ne {cfg : Cfg} {h : Heap α} {b x} {o : Hdr α} (ho : owns b o = false) (hs : Shape cfg h o) :
    Shape cfg (h.set b x) o := by
  cases o with
  | small => exact hs
  | big b' n c s =>
    have : b' ≠ b := by simpa [owns] using ho
    unfold Shape; simp only; rw [set_blk_ne _ _ this]; exact hs

theorem countP_zero_of {vs : List (Hdr α)} {b} (h : vs.countP (owns b) = 0) : ∀ o ∈ vs, owns b o = false := by
  intro o ho
  have := List.countP_eq_zero.1 h o ho
  simpa using this

/-- a sole owner -/
def Sole (h : Heap α) : Hdr α → Prop
  | .small _ _ => True
  | .big b _ _ _ => ∃ blk, h.blk b = some blk ∧ blk.arc = 0

def NotShared : Hdr α → Prop
  | .small _ _ => True
  | .big _ _ _ s => s = false

theorem sole_of_notShared {cfg : Cfg} {h : Heap α} {v : Hdr α} (hn : NotShared v) (hs : Shape cfg h v) : Sole h v := by
  cases v with
  | small => trivial
  | big b n c s => obtain ⟨blk, h1, _, _, _, _, h2, _⟩ := hs; exact ⟨blk, h1, h2 hn⟩

theorem others_not_own {cfg : Cfg} {h : Heap α} {b n c s} {os} (hc : Core cfg h (Hdr.big b n c s :: os))
    (hs : Sole h (Hdr.big b n c s)) : ∀ o ∈ os, owns b o = false := by
  obtain ⟨blk, hb, ha⟩ := hs
  have := hc.count b blk hb
  rw [ha, List.countP_cons] at this
  simp only [owns, beq_self_eq_true, if_true] at this
  exact countP_zero_of (by omega)

theorem loadCells_ok {cfg : Cfg} {h : Heap α} {v : Hdr α} (hs : Shape cfg h v) :
    ∃ cs, cellsOf h v = some cs ∧ loadCells h v = .ok cs ∧ v.size ≤ cs.length := by
  cases v with
  | small n cs => exact ⟨cs, rfl, rfl, by rw [hs.1]; exact hs.2⟩
  | big b n c s =>
    obtain ⟨blk, h1, h2, h3, _⟩ := hs
    refine ⟨blk.cells, by simp [cellsOf, h1], by simp [loadCells, cellsOf, h1], by rw [h2]; exact h3⟩

/-- capacity of the storage a header points at -/
def Hdr.room (cfg : Cfg) : Hdr α → Nat
  | .small _ _ => cfg.smallCapa
  | .big _ _ c _ => c

theorem room_eq {cfg : Cfg} {h : Heap α} {v : Hdr α} {cs} (hs : Shape cfg h v) (hc : cellsOf h v = some cs) :
    v.room cfg = cs.length := by
  cases v with
  | small n cs' => simp [cellsOf] at hc; subst hc; exact hs.1.symm
  | big b n c s =>
    obtain ⟨blk, h1, h2, _⟩ := hs
    simp [cellsOf, h1] at hc; subst hc; exact h2.symm

/-- writing back slots of a solely owned storage -/
theorem storeCells_ok {cfg : Cfg} {h : Heap α} {v : Hdr α} {os} {cs cs' : Cells α} (hc : Core cfg h (v :: os))
    (hs : Sole h v) (h0 : cellsOf h v = some cs) (hl : cs'.length = cs.length) :
    ∃ h' v', storeCells h v cs' = .ok (h', v') ∧ Core cfg h' (v' :: os) ∧ Frame h h' os ∧
      cellsOf h' v' = some cs' ∧ v'.size = v.size ∧ (NotShared v → NotShared v') ∧ Sole h' v' ∧
      v'.room cfg = v.room cfg ∧ (∀ b, owns b v' = owns b v) ∧ h'.next = h.next ∧
      (∀ o : Hdr α, (∀ b, owns b v = true → owns b o = false) → cellsOf h' o = cellsOf h o) := by
  cases v with
  | small n cs0 =>
    simp [cellsOf] at h0; subst h0
    refine ⟨h, .small n cs', rfl, ⟨?_, ?_, hc.fresh⟩, Frame.refl _ _, rfl, rfl, fun _ => trivial, trivial, rfl,
      fun _ => rfl, rfl, fun _ _ => rfl⟩
    · intro w hw
      rcases List.mem_cons.1 hw with rfl | hw
      · have := hc.shape (.small n cs0) (by simp)
        exact ⟨hl.trans this.1, this.2⟩
      · exact hc.shape w (List.mem_cons_of_mem _ hw)
    · intro b blk hb
      have := hc.count b blk hb
      simpa [List.countP_cons, owns] using this
  | big b n c s =>
    have hoth := others_not_own hc hs
    obtain ⟨blk, hb, ha⟩ := hs
    have hsh := hc.shape (.big b n c s) (by simp)
    simp [cellsOf, hb] at h0; subst h0
    refine ⟨h.set b (some { blk with cells := cs' }), .big b n c s, by simp [storeCells, hb], ⟨?_, ?_, ?_⟩,
      fun o ho => cellsOf_set_ne (hoth o ho), by simp [cellsOf], rfl, fun h => h, ⟨_, set_blk_self _ _ _, ha⟩, rfl,
      fun _ => rfl, rfl, ?_⟩
    · intro w hw
      rcases List.mem_cons.1 hw with rfl | hw
      · obtain ⟨blk', q1, q2, q3, q4, q5, q6, q7⟩ := hsh
        rw [hb] at q1; cases q1
        exact ⟨_, set_blk_self _ _ _, hl.trans q2, q3, q4, q5, q6, q7⟩
      · exact shape_set_ne (hoth w hw) (hc.shape w (List.mem_cons_of_mem _ hw))
    · intro b' blk' hb'
      by_cases hbb : b' = b
      · subst hbb
        rw [set_blk_self] at hb'; cases hb'
        exact hc.count b' blk hb
      · rw [set_blk_ne _ _ hbb] at hb'
        exact hc.count b' blk' hb'
    · intro b' hb'
      by_cases hbb : b' = b
      · subst hbb
        have := hc.fresh b' hb'
        rw [hb] at this; cases this
      · rw [set_blk_ne _ _ hbb]; exact hc.fresh b' hb'
    · intro o ho
      exact cellsOf_set_ne (ho b (by simp [owns]))

theorem setSize_core {cfg : Cfg} {h : Heap α} {v : Hdr α} {os} {n} (hc : Core cfg h (v :: os)) (hn : n ≤ v.room cfg) :
    Core cfg h (v.setSize n :: os) := by
  refine ⟨?_, ?_, hc.fresh⟩
  · intro w hw
    rcases List.mem_cons.1 hw with rfl | hw
    · have := hc.shape v (by simp)
      cases v with
      | small m cs => exact ⟨this.1, hn⟩
      | big b m c s =>
        obtain ⟨blk, q1, q2, q3, q4, q5, q6, q7⟩ := this
        exact ⟨blk, q1, q2, hn, q4, q5, q6, q7⟩
    · exact hc.shape w (List.mem_cons_of_mem _ hw)
  · intro b blk hb
    have := hc.count b blk hb
    rw [List.countP_cons] at this ⊢
    cases v <;> exact this

@[simp] theorem setSize_size (v : Hdr α) (n) : (v.setSize n).size = n := by cases v <;> rfl
@[simp] theorem setSize_cells (h : Heap α) (v : Hdr α) (n) : cellsOf h (v.setSize n) = cellsOf h v := by cases v <;> rfl
@[simp] theorem setSize_room (cfg : Cfg) (v : Hdr α) (n) : (v.setSize n).room cfg = v.room cfg := by cases v <;> rfl
theorem setSize_notShared {v : Hdr α} {n} (h : NotShared v) : NotShared (v.setSize n) := by cases v <;> exact h
@[simp] theorem setSize_owns (v : Hdr α) (n b) : owns b (v.setSize n) = owns b v := by cases v <;> rfl

/-- a fresh block -/
theorem allocBlock_ok {cfg : Cfg} (hv : Valid cfg) {h : Heap α} {vs} {n : Nat} (hc : Core cfg h vs)
    (hn : cfg.smallCapa < n) (hn' : n + 1 < 2 ^ 31) :
    allocBlock cfg h n = .error .exit ∨
    ∃ h' b c, allocBlock cfg h n = .ok (h', b, c) ∧ Core cfg h' (.big b n c false :: vs) ∧ Frame h h' vs ∧
      cellsOf h' (.big b n c false : Hdr α) = some (nones c) ∧ n ≤ c := by
  unfold allocBlock
  cases ha : Alloc.vecCapa cfg.sz cfg.copiable cfg.hasSmall n with
  | none => exact Or.inl rfl
  | some c =>
    right
    obtain ⟨h1, h2, _⟩ := Alloc.vecCapa_spec cfg.sz cfg.copiable cfg.hasSmall n c hv.sz_pos hv.sz_lt (by omega) hn' ha
    have hnone : h.blk h.next = none := hc.fresh _ (Nat.le_refl _)
    have hnot : ∀ o ∈ vs, owns h.next o = false := by
      intro o ho
      cases o with
      | small => rfl
      | big b n' c' s =>
        obtain ⟨blk, hb, _⟩ := hc.shape _ ho
        simp only [owns, beq_eq_false_iff_ne]
        intro he; rw [he, hnone] at hb; cases hb
    let h' : Heap α := { blk := fun i => if i = h.next then some ⟨0, List.replicate c none⟩ else h.blk i, next := h.next + 1 }
    have hne : ∀ b, b ≠ h.next → h'.blk b = h.blk b := fun b hb => by simp [h', hb]
    have heq : h'.blk h.next = some ⟨0, List.replicate c none⟩ := by simp [h']
    have hfr : Frame h h' vs := by
      intro o ho
      cases o with
      | small => rfl
      | big b n' c' s =>
        have := hnot _ ho
        have : b ≠ h.next := by simpa [owns] using this
        unfold cellsOf; simp only; rw [hne b this]
    refine ⟨h', h.next, c, rfl, ⟨?_, ?_, ?_⟩, hfr, by unfold cellsOf; simp only; rw [heq]; rfl, h1⟩
    · intro w hw
      rcases List.mem_cons.1 hw with rfl | hw
      · exact ⟨_, heq, by simp, h1, by omega, h2, fun _ => rfl, fun _ => rfl⟩
      · have hs := hc.shape w hw
        cases w with
        | small => exact hs
        | big b n' c' s =>
          have : b ≠ h.next := by simpa [owns] using hnot _ hw
          unfold Shape; simp only; rw [hne b this]; exact hs
    · intro b blk hb
      by_cases hbb : b = h.next
      · subst hbb
        rw [heq] at hb; cases hb
        rw [List.countP_cons]
        simp only [owns, beq_self_eq_true, if_true]
        have : vs.countP (owns h.next) = 0 := List.countP_eq_zero.2 (fun o ho => by simp [hnot o ho])
        omega
      · rw [hne b hbb] at hb
        rw [List.countP_cons, hc.count b blk hb]
        simp only [owns, beq_iff_eq, if_neg (Ne.symm hbb)]

    · intro b hb
      have : b ≠ h.next := by have : h.next + 1 ≤ b := hb; omega
      rw [hne b this]
      exact hc.fresh b (by have : h.next + 1 ≤ b := hb; omega)

/-- releasing one reference (safe release) -/
theorem sharedDealloc_ok {cfg : Cfg} {h : Heap α} {b n c s} {vs} (hc : Core cfg h (Hdr.big b n c s :: vs))
    (hct : Cont cfg h (Hdr.big b n c s)) :
    ∃ h', sharedDealloc cfg h b n = .ok h' ∧ Core cfg h' vs ∧ Frame h h' vs := by
  obtain ⟨blk, hb, hl, hn, _, _, hs1, hs2⟩ := hc.shape (.big b n c s) (by simp)
  have hcount := hc.count b blk hb
  unfold sharedDealloc
  rw [hb]
  simp only
  by_cases ha : cfg.copiable = true ∧ blk.arc ≠ 0
  · rw [if_pos (by simpa using ha)]
    refine ⟨_, rfl, ⟨?_, ?_, ?_⟩, ?_⟩
    · intro w hw
      have hw' := hc.shape w (List.mem_cons_of_mem _ hw)
      cases w with
      | small => exact hw'
      | big b' n' c' s' =>
        by_cases hbb : b' = b
        · subst hbb
          obtain ⟨blk', q1, q2, q3, q4, q5, q6, q7⟩ := hw'
          rw [hb] at q1; cases q1
          refine ⟨_, set_blk_self _ _ _, q2, q3, q4, q5, fun h => ?_, q7⟩
          exact absurd (q6 h) ha.2
        · exact shape_set_ne (by simpa [owns] using hbb) hw'
    · intro b' blk' hb'
      by_cases hbb : b' = b
      · subst hbb
        rw [set_blk_self] at hb'; cases hb'
        rw [List.countP_cons] at hcount
        simp only [owns, beq_self_eq_true, if_true] at hcount
        show _ = blk.arc - 1 + 1
        omega
      · rw [set_blk_ne _ _ hbb] at hb'
        have := hc.count b' blk' hb'
        rw [List.countP_cons] at this
        simpa [owns, Ne.symm hbb] using this
    · intro b' hb'
      have hbb : b' ≠ b := by intro e; subst e; have := hc.fresh b' hb'; rw [hb] at this; cases this
      rw [set_blk_ne _ _ hbb]; exact hc.fresh b' hb'
    · intro o ho
      cases o with
      | small => rfl
      | big b' n' c' s' =>
        by_cases hbb : b' = b
        · subst hbb; simp [cellsOf, hb]
        · exact cellsOf_set_ne (by simpa [owns] using hbb)
  · have ha0 : blk.arc = 0 := by
      rcases Classical.em (blk.arc = 0) with h0 | h0
      · exact h0
      · exact hs1 (hs2 (by cases hcp : cfg.copiable <;> simp_all))
    rw [if_neg (by simpa using ha)]
    have hoth : ∀ o ∈ vs, owns b o = false := others_not_own hc ⟨blk, hb, ha0⟩
    -- destroy and free
    have hdes : ∃ cs, destroyRange cfg blk.cells 0 n = .ok cs ∧ (cfg.trivial || allNone cs) = true := by
      by_cases ht : cfg.trivial = true
      · exact ⟨blk.cells, by simp [destroyRange, ht], by simp [ht]⟩
      · have ht' : cfg.trivial = false := by simpa using ht
        obtain ⟨c1, c2⟩ := hct ht' blk.cells (by simp [cellsOf, hb])
        simp only [Hdr.size] at c1 c2
        obtain ⟨b', h1, h2, h3, _⟩ := destroyRange_ok (cfg := cfg) (a := []) (b := blk.cells.take n)
          (c := blk.cells.drop n) (i := 0) (n := n) rfl (by simp; omega) (fun _ => c1)
        rw [List.nil_append, List.take_append_drop] at h1
        refine ⟨_, h1, ?_⟩
        rw [h3 ht']; simp [c2]
    obtain ⟨cs, hd1, hd2⟩ := hdes
    rw [hd1]
    refine ⟨(h.set b (some { blk with cells := cs })).set b none, ?_, ⟨?_, ?_, ?_⟩, ?_⟩
    · show freeBlock cfg _ b = _
      unfold freeBlock
      rw [set_blk_self]
      simp only [hd2, if_true]
    · intro w hw
      exact shape_set_ne (hoth w hw) (shape_set_ne (hoth w hw) (hc.shape w (List.mem_cons_of_mem _ hw)))
    · intro b' blk' hb'
      by_cases hbb : b' = b
      · subst hbb; rw [set_blk_self] at hb'; cases hb'
      · rw [set_blk_ne _ _ hbb, set_blk_ne _ _ hbb] at hb'
        have := hc.count b' blk' hb'
        rw [List.countP_cons] at this
        simpa [owns, Ne.symm hbb] using this
    · intro b' hb'
      by_cases hbb : b' = b
      · subst hbb; rw [set_blk_self]
      · rw [set_blk_ne _ _ hbb, set_blk_ne _ _ hbb]; exact hc.fresh b' hb'
    · intro o ho
      rw [cellsOf_set_ne (hoth o ho), cellsOf_set_ne (hoth o ho)]

/-- releasing a solely owned block whose items are gone -/
theorem uniqDealloc_ok {cfg : Cfg} {h : Heap α} {b n c s} {vs} (hc : Core cfg h (Hdr.big b n c s :: vs))
    (hs : Sole h (Hdr.big b n c s : Hdr α)) (hcs : cfg.trivial = false → ∃ k, cellsOf h (Hdr.big b n c s : Hdr α) = some (nones k)) :
    ∃ h', uniqDealloc cfg h b = .ok h' ∧ Core cfg h' vs ∧ Frame h h' vs := by
  have hoth := others_not_own hc hs
  obtain ⟨blk, hb, ha⟩ := hs
  refine ⟨h.set b none, ?_, ⟨?_, ?_, ?_⟩, fun o ho => cellsOf_set_ne (hoth o ho)⟩
  · unfold uniqDealloc freeBlock
    rw [hb]
    simp only
    rw [if_pos]
    by_cases ht : cfg.trivial = true
    · simp [ht]
    · obtain ⟨k, hk⟩ := hcs (by simpa using ht)
      simp [cellsOf, hb] at hk
      rw [hk]; simp
  · intro w hw
    exact shape_set_ne (hoth w hw) (hc.shape w (List.mem_cons_of_mem _ hw))
  · intro b' blk' hb'
    by_cases hbb : b' = b
    · subst hbb; rw [set_blk_self] at hb'; cases hb'
    · rw [set_blk_ne _ _ hbb] at hb'
      have := hc.count b' blk' hb'
      rw [List.countP_cons] at this
      simpa [owns, Ne.symm hbb] using this
  · intro b' hb'
    by_cases hbb : b' = b
    · subst hbb; rw [set_blk_self]
    · rw [set_blk_ne _ _ hbb]; exact hc.fresh b' hb'

/-- adding a header that owns nothing -/
theorem core_cons_small {cfg : Cfg} {h : Heap α} {vs} {n cs} (hc : Core cfg h vs) (hl : cs.length = cfg.smallCapa)
    (hn : n ≤ cfg.smallCapa) : Core cfg h (.small n cs :: vs) := by
  refine ⟨?_, ?_, hc.fresh⟩
  · intro w hw
    rcases List.mem_cons.1 hw with rfl | hw
    · exact ⟨hl, hn⟩
    · exact hc.shape w hw
  · intro b blk hb
    simpa [List.countP_cons, owns] using hc.count b blk hb

/-- dropping a header that owns nothing -/
theorem core_drop_small {cfg : Cfg} {h : Heap α} {vs} {n cs} (hc : Core cfg h (.small n cs :: vs)) : Core cfg h vs := by
  refine ⟨fun w hw => hc.shape w (List.mem_cons_of_mem _ hw), ?_, hc.fresh⟩
  intro b blk hb
  simpa [List.countP_cons, owns] using hc.count b blk hb

theorem core_swap {cfg : Cfg} {h : Heap α} {v w : Hdr α} {vs} (hc : Core cfg h (v :: w :: vs)) : Core cfg h (w :: v :: vs) :=
  hc.perm (List.Perm.swap _ _ _)

theorem markUnique_core {cfg : Cfg} {h : Heap α} {b n c s} {vs} (hc : Core cfg h (Hdr.big b n c s :: vs))
    (hs : Sole h (Hdr.big b n c s : Hdr α)) : Core cfg h (Hdr.big b n c false :: vs) := by
  refine ⟨?_, ?_, hc.fresh⟩
  · intro w hw
    rcases List.mem_cons.1 hw with rfl | hw
    · obtain ⟨blk, q1, q2, q3, q4, q5, q6, q7⟩ := hc.shape (.big b n c s) (by simp)
      obtain ⟨blk', r1, r2⟩ := hs
      rw [q1] at r1; cases r1
      exact ⟨blk, q1, q2, q3, q4, q5, fun _ => r2, fun _ => rfl⟩
    · exact hc.shape w (List.mem_cons_of_mem _ hw)
  · intro b' blk hb
    simpa [List.countP_cons, owns] using hc.count b' blk hb

end Verif.Vec
