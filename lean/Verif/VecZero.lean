import Verif.VecRefine
/-!
# Empty vectors do not share storage with non-empty ones

An invariant of every program: if two headers point at the same block, either both are empty or neither is.  (Cutting a
shared vector down to nothing gives the block up.)  It is what makes `append` to an empty vector always work although
the code compares data pointers.
-/
namespace Verif.Vec
open Verif.Pack (Cfg)
variable {α : Type}

/-- `v` and `o`, if they share a block, are both empty or both not. -/
def Zrel (v o : Hdr α) : Prop := ∀ b, owns b v = true → owns b o = true → (v.size = 0 ↔ o.size = 0)

/-- the invariant -/
def Zero (vs : List (Hdr α)) : Prop := ∀ v ∈ vs, ∀ o ∈ vs, Zrel v o

theorem Zero.perm {vs ws : List (Hdr α)} (h : Zero vs) (p : vs.Perm ws) : Zero ws :=
  fun v hv o ho => h v (p.symm.subset hv) o (p.symm.subset ho)

theorem Zero.sub {vs ws : List (Hdr α)} (h : Zero vs) (p : ws ⊆ vs) : Zero ws :=
  fun v hv o ho => h v (p hv) o (p ho)

/-- what an operation may do to a header -/
def Fine (os : List (Hdr α)) (v v' : Hdr α) : Prop :=
  (∀ o ∈ os, ∀ b, owns b v' = true → owns b o = false) ∨
  ((∀ b, owns b v' = owns b v) ∧ (v'.size = v.size ∨ (0 < v'.size ∧ 0 < v.size)))

theorem Zero.fine {os : List (Hdr α)} {v v'} (h : Zero (v :: os)) (hf : Fine os v v') : Zero (v' :: os) := by
  intro x hx y hy b hbx hby
  rw [List.mem_cons] at hx hy
  rcases hx with rfl | hx <;> rcases hy with rfl | hy
  · rfl
  · rcases hf with hf | ⟨h1, h2⟩
    · rw [hf y hy b hbx] at hby; cases hby
    · have := h v (by simp) y (by simp [hy]) b (by rw [← h1]; exact hbx) hby
      omega
  · rcases hf with hf | ⟨h1, h2⟩
    · rw [hf x hx b hby] at hbx; cases hbx
    · have := h v (by simp) x (by simp [hx]) b (by rw [← h1]; exact hby) hbx
      omega
  · exact h x (by simp [hx]) y (by simp [hy]) b hbx hby

/-- the part of the invariant needed here -/
structure Base (cfg : Cfg) (h : Heap α) (v : Hdr α) (os : List (Hdr α)) : Prop where
  low : ∀ o ∈ v :: os, ∀ b, owns b o = true → b < h.next
  sole : ∀ b blk, owns b v = true → h.blk b = some blk → blk.arc = 0 → ∀ o ∈ os, owns b o = false
  uniq : ∀ b n c, v = .big b n c false → ∀ o ∈ os, owns b o = false
  cop : cfg.copiable = false → ∀ b n c s, v = .big b n c s → s = false

theorem Base.of_inv {cfg : Cfg} {h : Heap α} {v os} (hi : Inv cfg h (v :: os)) : Base cfg h v os := by
  have hsole : ∀ b blk, owns b v = true → h.blk b = some blk → blk.arc = 0 → ∀ o ∈ os, owns b o = false := by
    intro b blk hb hblk ha o ho
    have hc := hi.1.count b blk hblk
    rw [List.countP_cons, hb, ha] at hc
    simp only [if_true] at hc
    have h0 : os.countP (owns b) = 0 := by omega
    rw [List.countP_eq_zero] at h0
    simpa using h0 o ho
  refine ⟨?_, hsole, ?_, ?_⟩
  · intro o ho b hb
    have hs := hi.1.shape o ho
    cases o with
    | small => simp [owns] at hb
    | big b' n c s =>
      have : b' = b := by simpa [owns] using hb
      subst this
      obtain ⟨blk, h1, _⟩ := hs
      rcases Nat.lt_or_ge b' h.next with hlt | hge
      · exact hlt
      · rw [hi.1.fresh b' hge] at h1; cases h1
  · rintro b n c rfl
    obtain ⟨blk, h1, h2, h3, h4, h5, h6, h7⟩ := hi.1.shape _ List.mem_cons_self
    exact hsole b blk (by simp [owns]) h1 (h6 rfl)
  · rintro hc b n c s rfl
    obtain ⟨blk, h1, h2, h3, h4, h5, h6, h7⟩ := hi.1.shape _ List.mem_cons_self
    exact h7 hc

theorem bind_ok {β γ : Type} {a : M β} {f : β → M γ} {y : γ} (h : (do let x ← a; f x) = .ok y) :
    ∃ x, a = .ok x ∧ f x = .ok y := by
  cases a with
  | error e => cases h
  | ok x => exact ⟨x, rfl, h⟩

theorem storeCells_hdr {h : Heap α} {v : Hdr α} {cs h' v'} (e : storeCells h v cs = .ok (h', v')) :
    (∀ b, owns b v' = owns b v) ∧ v'.size = v.size ∧ h'.next = h.next ∧ ∀ b, owns b v = false → h'.blk b = h.blk b := by
  cases v with
  | small n c0 => cases e; exact ⟨fun _ => rfl, rfl, rfl, fun _ _ => rfl⟩
  | big b n c s =>
    simp only [storeCells] at e
    split at e
    · cases e
      refine ⟨fun _ => rfl, rfl, rfl, fun b' hb' => ?_⟩
      have : b' ≠ b := by intro hc; simp [owns, hc] at hb'
      simp [Heap.set, this]
    · cases e

theorem owns_setSize (n : Nat) (v : Hdr α) (b) : owns b (v.setSize n) = owns b v := by cases v <;> rfl

theorem size_setSize (n : Nat) (v : Hdr α) : (v.setSize n).size = n := by cases v <;> rfl

theorem nonNull_ok {r : M (Heap α × Hdr α)} {x} (h : nonNull r = .ok x) : r = .ok (x.1, x.2.1) := by
  unfold nonNull at h
  split at h
  · cases h; rfl
  · cases h

theorem holdGround_hdr {cfg : Cfg} {kind} {h : Heap α} {v : Hdr α} {n i d k p h' v'}
    (e : holdGround cfg kind h v n i d k p = .ok (h', v')) : ∀ b, owns b v' = owns b v := by
  unfold holdGround at e
  obtain ⟨cs, _, e⟩ := bind_ok e
  obtain ⟨cs, _, e⟩ := bind_ok e
  obtain ⟨cs, _, e⟩ := bind_ok e
  obtain ⟨⟨h1, v1⟩, e1, e⟩ := bind_ok e
  cases e
  intro b
  rw [owns_setSize, (storeCells_hdr e1).1]

/-- `initList`/`initSplice`/`allocBlock` only touch a fresh block -/
theorem newStorage_hdr {cfg : Cfg} {h : Heap α} {n h' nv}
    (e : (if n ≤ cfg.smallCapa then
        .ok (h, (.small n (List.replicate cfg.smallCapa none) : Hdr α))
      else do
        let (h, b, c) ← allocBlock cfg h n
        .ok (h, .big b n c false) : M (Heap α × Hdr α)) = .ok (h', nv)) :
    (∀ b, owns b nv = true → h.next ≤ b) ∧ h.next ≤ h'.next ∧ ∀ b < h.next, h'.blk b = h.blk b := by
  split at e
  · cases e; exact ⟨fun b hb => by simp [owns] at hb, Nat.le_refl _, fun _ _ => rfl⟩
  · obtain ⟨⟨h1, b1, c1⟩, e1, e⟩ := bind_ok e
    unfold allocBlock at e1
    split at e1
    · cases e1
    · cases e1; cases e
      refine ⟨fun b hb => ?_, Nat.le_succ _, fun b hb => ?_⟩
      · simp only [owns, beq_iff_eq] at hb; omega
      · simp only; rw [if_neg (by omega)]

theorem reallocTo_hdr {cfg : Cfg} {kind} {h : Heap α} {v : Hdr α} {n i d k p h' v'}
    (e : reallocTo cfg kind h v n i d k p = .ok (h', v')) : ∀ b, owns b v' = true → h.next ≤ b := by
  unfold reallocTo at e
  simp only at e
  obtain ⟨⟨h1, nv⟩, e1, e⟩ := bind_ok e
  have hn := (newStorage_hdr e1).1
  simp only at e
  split at e
  · obtain ⟨_, _, e⟩ := bind_ok e
    obtain ⟨_, _, e⟩ := bind_ok e
    obtain ⟨_, _, e⟩ := bind_ok e
    intro b hb
    exact hn b (by rw [← (storeCells_hdr e).1]; exact hb)
  · obtain ⟨u, _, e⟩ := bind_ok e
    split at e
    · obtain ⟨_, _, e⟩ := bind_ok e
      obtain ⟨_, _, e⟩ := bind_ok e
      obtain ⟨_, _, e⟩ := bind_ok e
      obtain ⟨⟨_, _⟩, _, e⟩ := bind_ok e
      obtain ⟨⟨_, _⟩, _, e⟩ := bind_ok e
      obtain ⟨⟨_, v2⟩, e2, e⟩ := bind_ok e
      obtain ⟨_, _, e⟩ := bind_ok e
      cases e
      intro b hb
      exact hn b (by rw [← (storeCells_hdr e2).1]; exact hb)
    · obtain ⟨_, _, e⟩ := bind_ok e
      obtain ⟨_, _, e⟩ := bind_ok e
      obtain ⟨_, _, e⟩ := bind_ok e
      obtain ⟨⟨_, v2⟩, e2, e⟩ := bind_ok e
      obtain ⟨_, _, e⟩ := bind_ok e
      cases e
      intro b hb
      exact hn b (by rw [← (storeCells_hdr e2).1]; exact hb)

theorem fine_fresh {cfg : Cfg} {h : Heap α} {v v' : Hdr α} {os} (hb : Base cfg h v os)
    (hn : ∀ b, owns b v' = true → h.next ≤ b) : Fine os v v' :=
  Or.inl fun o ho b hb' => by
    cases hc : owns b o with
    | false => rfl
    | true => exact absurd (hb.low o (by simp [ho]) b hc) (Nat.not_lt.2 (hn b hb'))

/-- With `kind = reserve` the size of the result is overwritten afterwards, so the result must not share at all. -/
theorem splice_fine {cfg : Cfg} {kind} {h : Heap α} {v : Hdr α} {os i d k p q h' v' nl} (hb : Base cfg h v os)
    (hsz : d + p ≤ v.size)
    (e : splice cfg kind h v i d k p q = .ok (h', v', nl)) :
    Fine os v v' ∧ (kind = .reserve → ∀ m, Fine os v (v'.setSize m)) := by
  have key : (∀ o ∈ os, ∀ b, owns b v' = true → owns b o = false) →
      Fine os v v' ∧ (kind = .reserve → ∀ m, Fine os v (v'.setSize m)) := fun hk =>
    ⟨Or.inl hk, fun _ m => Or.inl fun o ho b hb' => hk o ho b (by rw [owns_setSize] at hb'; exact hb')⟩
  have keyF : (∀ b, owns b v' = true → h.next ≤ b) →
      Fine os v v' ∧ (kind = .reserve → ∀ m, Fine os v (v'.setSize m)) := fun hk =>
    ⟨fine_fresh hb hk, fun _ m => fine_fresh hb fun b hb' => hk b (by rw [owns_setSize] at hb'; exact hb')⟩
  unfold splice at e
  simp only at e
  generalize hN : (if kind = .clear then 0 else v.size + (k + q) - d - p) = N at e
  split at e
  · cases e
  · split at e
    · split at e
      · have := holdGround_hdr (nonNull_ok e)
        exact key fun o ho b hb' => by rw [this] at hb'; simp [owns] at hb'
      · exact keyF (reallocTo_hdr (nonNull_ok e))
    · split at e
      · have := holdGround_hdr (nonNull_ok e)
        refine key fun o ho b hb' => ?_
        rw [this] at hb'
        simp only [owns, beq_iff_eq] at hb'
        subst hb'
        exact hb.uniq _ _ _ rfl o ho
      · exact keyF (reallocTo_hdr (nonNull_ok e))
    · rename_i b n capa
      split at e
      · rename_i hns
        split at e
        · rename_i hk
          cases e
          refine ⟨Or.inr ⟨fun _ => rfl, Or.inr ?_⟩, fun hr => absurd hr hk.1⟩
          simp only [Hdr.size] at hN hsz ⊢
          obtain ⟨_, _, hk3, _⟩ := hk
          have h1 := hns.1
          split at hN <;> omega
        · split at e
          · cases e
          · rename_i hcu
            have := holdGround_hdr (nonNull_ok e)
            refine key fun o ho b' hb' => ?_
            rw [this] at hb'
            simp only [owns, beq_iff_eq] at hb'
            subst hb'
            unfold checkUnique at hcu
            split at hcu
            · rename_i hcp
              have := hb.cop (by simpa using hcp) _ _ _ _ rfl
              cases this
            · split at hcu
              · cases hcu
              · rename_i blk hblk
                simp only [Except.ok.injEq, beq_iff_eq] at hcu
                exact hb.sole _ blk (by simp [owns]) hblk hcu o ho
          · split at e
            · rename_i hk
              cases e
              exact ⟨Or.inr ⟨fun _ => rfl, Or.inl rfl⟩, fun hr => by rw [hr] at hk; cases hk.1⟩
            · exact keyF (reallocTo_hdr (nonNull_ok e))
      · exact keyF (reallocTo_hdr (nonNull_ok e))

theorem spliceRaw_fine {cfg : Cfg} {kind} {h : Heap α} {v : Hdr α} {os} {i d k p q : Int} {h' v' nl} (hb : Base cfg h v os)
    (e : spliceRaw cfg kind h v i d k p q = .ok (h', v', nl)) :
    Fine os v v' ∧ (kind = .reserve → ∀ m, Fine os v (v'.setSize m)) := by
  unfold spliceRaw at e
  simp only at e
  refine splice_fine hb ?_ e
  have h1 := clampIdx_le v.size i
  have h2 := clampCnt_le (v.size - clampIdx v.size i) d
  have h3 := clampCnt_le (v.size - clampIdx v.size i - clampCnt (v.size - clampIdx v.size i) d) p
  omega

theorem construct_hdr {cfg : Cfg} {h : Heap α} {v : Hdr α} {nl k xs h' v'} (e : construct cfg h v nl k xs = .ok (h', v')) :
    (∀ b, owns b v' = owns b v) ∧ v'.size = v.size ∧ h'.next = h.next ∧ ∀ b, owns b v = false → h'.blk b = h.blk b := by
  unfold construct at e
  split at e
  · cases e; exact ⟨fun _ => rfl, rfl, rfl, fun _ _ => rfl⟩
  · split at e
    · cases e
    · obtain ⟨_, _, e⟩ := bind_ok e
      obtain ⟨_, _, e⟩ := bind_ok e
      exact storeCells_hdr e

theorem defInit_hdr {cfg : Cfg} {zero : α} {zf} {h : Heap α} {v : Hdr α} {nl k n h' v'}
    (e : defInit cfg zero zf h v nl k n = .ok (h', v')) : (∀ b, owns b v' = owns b v) ∧ v'.size = v.size := by
  unfold defInit at e
  split at e
  · cases e; exact ⟨fun _ => rfl, rfl⟩
  · split at e
    · cases e
    · obtain ⟨_, _, e⟩ := bind_ok e
      split at e
      · split at e
        · exact ⟨(storeCells_hdr e).1, (storeCells_hdr e).2.1⟩
        · split at e
          · exact ⟨(storeCells_hdr e).1, (storeCells_hdr e).2.1⟩
          · cases e
      · cases e

theorem Fine.then {os : List (Hdr α)} {v v1 v2} (hf : Fine os v v1) (h1 : ∀ b, owns b v2 = owns b v1) (h2 : v2.size = v1.size) :
    Fine os v v2 := by
  rcases hf with hf | ⟨g1, g2⟩
  · exact Or.inl fun o ho b hb => hf o ho b (by rw [← h1]; exact hb)
  · exact Or.inr ⟨fun b => (h1 b).trans (g1 b), by omega⟩

theorem Fine.refl (os : List (Hdr α)) (v) : Fine os v v := Or.inr ⟨fun _ => rfl, Or.inl rfl⟩

theorem reserve_fine {cfg : Cfg} {h : Heap α} {v : Hdr α} {os} {c : Int} {h' v'} (hb : Base cfg h v os)
    (e : reserve cfg h v c = .ok (h', v')) : Fine os v v' := by
  unfold reserve at e
  split at e
  · cases e; exact Fine.refl _ _
  · split at e
    · cases e; exact Fine.refl _ _
    · obtain ⟨⟨h1, v1, nl⟩, e1, e⟩ := bind_ok e
      cases e
      exact (spliceRaw_fine hb e1).2 rfl _

theorem initList_hdr {cfg : Cfg} {h : Heap α} {xs h' v'} (e : initList cfg h xs = .ok (h', v')) :
    (∀ b, owns b v' = true → h.next ≤ b) ∧ h.next ≤ h'.next ∧ ∀ b < h.next, h'.blk b = h.blk b := by
  unfold initList initSplice at e
  obtain ⟨⟨h1, v1⟩, e1, e⟩ := bind_ok e
  split at e1
  · cases e1
  · have hn := newStorage_hdr e1
    have hc := construct_hdr e
    refine ⟨fun b hb => hn.1 b (by rw [← hc.1]; exact hb), by rw [hc.2.2.1]; exact hn.2.1, fun b hlt => ?_⟩
    rw [hc.2.2.2 b, hn.2.2 b hlt]
    cases ho : owns b v1 with
    | false => rfl
    | true => exact absurd (hn.1 b ho) (by omega)

theorem Base.mono {cfg : Cfg} {h h' : Heap α} {v os} (hb : Base cfg h v os) (h1 : h.next ≤ h'.next)
    (h2 : ∀ b < h.next, h'.blk b = h.blk b) : Base cfg h' v os :=
  ⟨fun o ho b hb' => Nat.lt_of_lt_of_le (hb.low o ho b hb') h1,
   fun b blk hb' hblk => hb.sole b blk hb' (by rw [← h2 b (hb.low v (by simp) b hb')]; exact hblk), hb.uniq, hb.cop⟩

theorem moveIn_hdr {cfg : Cfg} {h : Heap α} {v : Hdr α} {nl k src h' v' s'} (e : moveIn cfg h v nl k src = .ok (h', v', s')) :
    (∀ b, owns b v' = owns b v) ∧ v'.size = v.size := by
  unfold moveIn at e
  simp only at e
  split at e
  · obtain ⟨⟨h1, v1⟩, e1, e⟩ := bind_ok e
    cases e
    exact ⟨(construct_hdr e1).1, (construct_hdr e1).2.1⟩
  · obtain ⟨u, _, e⟩ := bind_ok e
    split at e
    · obtain ⟨⟨h1, v1⟩, e1, e⟩ := bind_ok e
      obtain ⟨_, _, e⟩ := bind_ok e
      cases e
      split at e1
      · cases e1; exact ⟨fun _ => rfl, rfl⟩
      · split at e1
        · cases e1
        · obtain ⟨_, _, e1⟩ := bind_ok e1
          obtain ⟨_, _, e1⟩ := bind_ok e1
          obtain ⟨⟨_, _⟩, _, e1⟩ := bind_ok e1
          obtain ⟨⟨_, _⟩, _, e1⟩ := bind_ok e1
          exact ⟨(storeCells_hdr e1).1, (storeCells_hdr e1).2.1⟩
    · obtain ⟨_, _, e⟩ := bind_ok e
      obtain ⟨⟨h1, v1⟩, e1, e⟩ := bind_ok e
      obtain ⟨_, _, e⟩ := bind_ok e
      cases e
      exact ⟨(construct_hdr e1).1, (construct_hdr e1).2.1⟩

theorem spliceMove_fine {cfg : Cfg} {h : Heap α} {v : Hdr α} {os} {i d : Int} {src h' v' s'} (hb : Base cfg h v os)
    (e : spliceMove cfg h v i d src = .ok (h', v', s')) : Fine os v v' := by
  unfold spliceMove at e
  obtain ⟨⟨h1, v1, nl⟩, e1, e⟩ := bind_ok e
  exact (spliceRaw_fine hb e1).1.then (moveIn_hdr e).1 (moveIn_hdr e).2

theorem appendMove_fine {cfg : Cfg} {h : Heap α} {v : Hdr α} {os} {d : Int} {src h' v' s'} (hb : Base cfg h v os)
    (e : appendMove cfg h v d src = .ok (h', v', s')) : Fine os v v' := by
  unfold appendMove at e
  obtain ⟨⟨h1, v1, nl⟩, e1, e⟩ := bind_ok e
  exact (spliceRaw_fine hb e1).1.then (moveIn_hdr e).1 (moveIn_hdr e).2

theorem selfSplice_fine {cfg : Cfg} {h : Heap α} {v : Hdr α} {os} {i d : Int} {xs h' v'} (hb : Base cfg h v os)
    (e : selfSplice cfg h v i d xs = .ok (h', v')) : Fine os v v' := by
  unfold selfSplice at e
  obtain ⟨⟨h1, t⟩, e1, e⟩ := bind_ok e
  obtain ⟨⟨h2, v2, s2⟩, e2, e⟩ := bind_ok e
  obtain ⟨_, _, e⟩ := bind_ok e
  cases e
  have hn := initList_hdr e1
  exact spliceMove_fine (hb.mono hn.2.1 hn.2.2) e2

theorem spliceCopy_fine {cfg : Cfg} {h : Heap α} {v w : Hdr α} {os} {same a n adj} {i d : Int} {h' v'} (hb : Base cfg h v os)
    (e : spliceCopy cfg h v w same a n adj i d = .ok (h', v')) : Fine os v v' := by
  have hp : ∀ {h' v'}, (do
      let (h, v, null) ← spliceRaw cfg .normal h v i d n 0 0
      let scs ← loadCells h w
      construct cfg h v null i (slice scs a n)) = .ok (h', v') → Fine os v v' := by
    intro h' v' e
    obtain ⟨⟨h1, v1, nl⟩, e1, e⟩ := bind_ok e
    obtain ⟨_, _, e⟩ := bind_ok e
    exact (spliceRaw_fine hb e1).1.then (construct_hdr e).1 (construct_hdr e).2.1
  unfold spliceCopy at e
  simp only at e
  split at e
  · exact hp e
  · split at e
    · exact hp e
    · split at e
      · obtain ⟨_, _, e⟩ := bind_ok e
        exact selfSplice_fine hb e
      · cases e; exact Fine.refl _ _

theorem appendCopy_fine {cfg : Cfg} {h : Heap α} {v w : Hdr α} {os} {same a n adj} {d : Int} {h' v'} (hb : Base cfg h v os)
    (e : appendCopy cfg h v w same a n adj d = .ok (h', v')) : Fine os v v' := by
  have hp : ∀ {h' v'}, (do
      let (h, v', null) ← spliceRaw cfg .normal h v 0 0 0 d n
      let scs ← loadCells h w
      construct cfg h v' null (v.size - d) (slice scs a n)) = .ok (h', v') → Fine os v v' := by
    intro h' v' e
    obtain ⟨⟨h1, v1, nl⟩, e1, e⟩ := bind_ok e
    obtain ⟨_, _, e⟩ := bind_ok e
    exact (spliceRaw_fine hb e1).1.then (construct_hdr e).1 (construct_hdr e).2.1
  unfold appendCopy at e
  simp only at e
  split at e
  · exact hp e
  · split at e
    · exact hp e
    · split at e
      · obtain ⟨_, _, e⟩ := bind_ok e
        exact selfSplice_fine hb e
      · cases e; exact Fine.refl _ _

theorem var_ok {s : State α} {i v} (e : s.var i = .ok v) : s.vars[i]? = some (some v) := by
  unfold State.var at e
  split at e
  · rename_i heq; cases e; exact heq
  · cases e

theorem live_append (l : List (Option (Hdr α))) (v) : live (l ++ [some v]) = live l ++ [v] := by simp [live]

theorem live_set_none_sub (l : List (Option (Hdr α))) (i) : live (l.set i none) ⊆ live l := by
  intro v hv
  simp only [live, List.mem_filterMap, id] at hv ⊢
  obtain ⟨o, ho, rfl⟩ := hv
  rcases List.mem_or_eq_of_mem_set ho with h | h
  · exact ⟨_, h, rfl⟩
  · cases h

/-- replacing a variable by a header that is fine -/
theorem zero_set {s : State α} {i v v'} (hz : Zero (live s.vars)) (hv : s.vars[i]? = some (some v))
    (hf : Fine (live (s.vars.set i none)) v v') : Zero (live (s.vars.set i (some v'))) :=
  Zero.perm (Zero.fine (hz.perm (live_get hv)) hf) (live_set (List.getElem?_eq_some_iff.1 hv).1 (some v')).symm

theorem upd_zero {cfg : Cfg} {s s' : State α} {i} {f : Heap α → Hdr α → M (Heap α × Hdr α)}
    (hi : Inv cfg s.heap (live s.vars)) (hz : Zero (live s.vars))
    (hf : ∀ v h' v', s.vars[i]? = some (some v) → Base cfg s.heap v (live (s.vars.set i none)) → f s.heap v = .ok (h', v') →
      Fine (live (s.vars.set i none)) v v')
    (e : s.upd i f = .ok s') : Zero (live s'.vars) := by
  unfold State.upd at e
  obtain ⟨v, e1, e⟩ := bind_ok e
  obtain ⟨⟨h', v'⟩, e2, e⟩ := bind_ok e
  cases e
  have hv := var_ok e1
  exact zero_set hz hv (hf v h' v' hv (Base.of_inv (hi.perm (live_get hv))) e2)

/-- adding a variable whose header shares no block -/
theorem zero_add {s : State α} {v'} (hz : Zero (live s.vars)) (hn : ∀ o ∈ live s.vars, ∀ b, owns b v' = true → owns b o = false) :
    Zero (live (s.vars ++ [some v'])) := by
  rw [live_append]
  intro x hx y hy b hbx hby
  rw [List.mem_append, List.mem_singleton] at hx hy
  rcases hx with hx | rfl <;> rcases hy with hy | rfl
  · exact hz x hx y hy b hbx hby
  · rw [hn x hx b hby] at hbx; cases hbx
  · rw [hn y hy b hbx] at hby; cases hby
  · rfl

/-- two headers on the same block with the same size in place of one -/
theorem zero_copy {os : List (Hdr α)} {v w x : Hdr α} (hz : Zero (v :: os)) (hw : ∀ b, owns b w = owns b v) (hws : w.size = v.size)
    (hx : ∀ b, owns b x = owns b v) (hxs : x.size = v.size) : Zero (w :: x :: os) := by
  have h1 : Zero (x :: os) := hz.fine (Or.inr ⟨hx, Or.inl hxs⟩)
  have h2 : Zero (x :: x :: os) := h1.sub (by intro y hy; simpa using hy)
  exact h2.fine (Or.inr ⟨fun b => (hw b).trans (hx b).symm, Or.inl (hws.trans hxs.symm)⟩)

theorem copy_hdr {cfg : Cfg} {h : Heap α} {c : Hdr α} {h' v w} (e : copy cfg h c = .ok (h', v, w)) :
    (∀ b, owns b v = owns b c) ∧ v.size = c.size ∧ (∀ b, owns b w = owns b c) ∧ w.size = c.size := by
  unfold copy at e
  split at e
  · split at e
    · cases e; exact ⟨fun _ => rfl, rfl, fun _ => rfl, rfl⟩
    · split at e
      · cases e
      · cases e; exact ⟨fun _ => rfl, rfl, fun _ => rfl, rfl⟩
  · cases e

theorem owns_empty (cfg : Cfg) (b) : owns b (emptyHdr cfg : Hdr α) = false := rfl

/-- Every statement keeps the invariant. -/
theorem step_zero {cfg : Cfg} (zero : α) {s s' : State α} (hi : Inv cfg s.heap (live s.vars)) (hz : Zero (live s.vars))
    (op : Op α) (e : step cfg zero s op = .ok s') : Zero (live s'.vars) := by
  cases op with
  | new => cases e; exact zero_add hz fun o _ b hb => by rw [owns_empty] at hb; cases hb
  | lit xs =>
    obtain ⟨⟨h1, v1⟩, e1, e⟩ := bind_ok e
    cases e
    have hn := initList_hdr e1
    refine zero_add hz fun o ho b hb => ?_
    have := (Base.of_inv (v := emptyHdr cfg) (os := live s.vars) (empty_ok hi).1).low o (by simp [ho]) b
    cases hc : owns b o with
    | false => rfl
    | true => have := this hc; have := hn.1 b hb; omega
  | copyNew j =>
    obtain ⟨v, e1, e⟩ := bind_ok e
    obtain ⟨⟨h1, v1, w1⟩, e2, e⟩ := bind_ok e
    cases e
    have hv := var_ok e1
    obtain ⟨c1, c2, c3, c4⟩ := copy_hdr e2
    have := zero_copy (hz.perm (live_get hv)) c3 c4 c1 c2
    simp only [live_append]
    refine this.perm ?_
    refine (List.Perm.cons w1 (live_set (List.getElem?_eq_some_iff.1 hv).1 (some v1)).symm).trans ?_
    exact (List.perm_append_singleton _ _).symm
  | moveNew j =>
    obtain ⟨v, e1, e⟩ := bind_ok e
    cases e
    have hv := var_ok e1
    simp only [live_append]
    have hp := hz.perm (live_get hv)
    have : Zero (emptyHdr cfg :: v :: live (s.vars.set j none)) := by
      have h2 : Zero (v :: v :: live (s.vars.set j none)) := hp.sub (by intro y hy; simpa using hy)
      exact h2.fine (Or.inl fun o _ b hb => by rw [owns_empty] at hb; cases hb)
    refine this.perm ?_
    refine (List.Perm.swap v (emptyHdr cfg) _).trans ?_
    refine (List.Perm.cons v (live_set (List.getElem?_eq_some_iff.1 hv).1 (some (emptyHdr cfg))).symm).trans ?_
    exact (List.perm_append_singleton _ _).symm
  | copyAssign i j =>
    simp only [step] at e
    split at e
    · cases e
    · rename_i hne
      obtain ⟨old, e0, e⟩ := bind_ok e
      obtain ⟨v, e1, e⟩ := bind_ok e
      obtain ⟨⟨h1, v1, w1⟩, e2, e⟩ := bind_ok e
      obtain ⟨h2, _, e⟩ := bind_ok e
      cases e
      have hv := var_ok e1
      have hv0 := var_ok e0
      obtain ⟨c1, c2, c3, c4⟩ := copy_hdr e2
      have hlt := (List.getElem?_eq_some_iff.1 hv).1
      have hlt0 := (List.getElem?_eq_some_iff.1 hv0).1
      have h3 := zero_copy (hz.perm (live_get hv)) c3 c4 c1 c2
      have hperm := (live_set (vars := s.vars.set j (some v1)) (i := i) (by simpa using hlt0) (some w1)).symm
      refine Zero.perm (Zero.sub h3 ?_) hperm
      intro y hy
      simp only [live, List.filterMap_cons, id, List.filterMap_nil, List.singleton_append, List.mem_cons] at hy
      rcases hy with rfl | hy
      · simp
      · have hy := live_set_none_sub _ _ hy
        exact List.mem_cons_of_mem _ ((live_set hlt (some v1)).subset hy)
  | moveAssign i j =>
    simp only [step] at e
    split at e
    · cases e
    · rename_i hne
      obtain ⟨old, e0, e⟩ := bind_ok e
      obtain ⟨h1, _, e⟩ := bind_ok e
      obtain ⟨v, e1, e⟩ := bind_ok e
      cases e
      have hv := var_ok e1
      have hv0 := var_ok e0
      have hlt := (List.getElem?_eq_some_iff.1 hv).1
      have hlt0 := (List.getElem?_eq_some_iff.1 hv0).1
      have hp := hz.perm (live_get hv)
      have h3 : Zero (emptyHdr cfg :: v :: live (s.vars.set j none)) := by
        have h2 : Zero (v :: v :: live (s.vars.set j none)) := hp.sub (by intro y hy; simpa using hy)
        exact h2.fine (Or.inl fun o _ b hb => by rw [owns_empty] at hb; cases hb)
      have hperm := (live_set (vars := s.vars.set j (some (emptyHdr cfg))) (i := i) (by simpa using hlt0) (some v)).symm
      refine Zero.perm (Zero.sub h3 ?_) hperm
      intro y hy
      simp only [live, List.filterMap_cons, id, List.filterMap_nil, List.singleton_append, List.mem_cons] at hy
      rcases hy with rfl | hy
      · simp
      · have hy := live_set_none_sub _ _ hy
        have := (live_set hlt (some (emptyHdr cfg))).subset hy
        simp only [live, List.filterMap_cons, id, List.filterMap_nil, List.singleton_append, List.mem_cons] at this ⊢
        exact this.elim Or.inl (fun h => Or.inr (Or.inr h))
  | drop i =>
    obtain ⟨v, e1, e⟩ := bind_ok e
    obtain ⟨h2, _, e⟩ := bind_ok e
    cases e
    exact hz.sub (live_set_none_sub _ _)
  | push i x =>
    simp only [step] at e
    refine upd_zero hi hz (fun v h' v' _ hb e => ?_) e
    obtain ⟨⟨h1, v1, nl⟩, e1, e⟩ := bind_ok e
    exact (spliceRaw_fine hb e1).1.then (construct_hdr e).1 (construct_hdr e).2.1
  | insert i k x =>
    simp only [step] at e
    refine upd_zero hi hz (fun v h' v' _ hb e => ?_) e
    obtain ⟨⟨h1, v1, nl⟩, e1, e⟩ := bind_ok e
    exact (spliceRaw_fine hb e1).1.then (construct_hdr e).1 (construct_hdr e).2.1
  | unshift i x =>
    simp only [step] at e
    refine upd_zero hi hz (fun v h' v' _ hb e => ?_) e
    obtain ⟨⟨h1, v1, nl⟩, e1, e⟩ := bind_ok e
    exact (spliceRaw_fine hb e1).1.then (construct_hdr e).1 (construct_hdr e).2.1
  | resize i zf n =>
    simp only [step] at e
    refine upd_zero hi hz (fun v h' v' _ hb e => ?_) e
    obtain ⟨⟨h1, v1, nl⟩, e1, e⟩ := bind_ok e
    exact (spliceRaw_fine hb e1).1.then (defInit_hdr e).1 (defInit_hdr e).2
  | grow i zf n =>
    simp only [step] at e
    refine upd_zero hi hz (fun v h' v' _ hb e => ?_) e
    obtain ⟨⟨h1, v1, nl⟩, e1, e⟩ := bind_ok e
    exact (spliceRaw_fine hb e1).1.then (defInit_hdr e).1 (defInit_hdr e).2
  | shrink i n =>
    simp only [step] at e
    refine upd_zero hi hz (fun v h' v' _ hb e => ?_) e
    obtain ⟨⟨h1, v1, nl⟩, e1, e⟩ := bind_ok e
    cases e; exact (spliceRaw_fine hb e1).1
  | clear i =>
    simp only [step] at e
    refine upd_zero hi hz (fun v h' v' _ hb e => ?_) e
    obtain ⟨⟨h1, v1, nl⟩, e1, e⟩ := bind_ok e
    cases e; exact (spliceRaw_fine hb e1).1
  | pop i =>
    simp only [step] at e
    refine upd_zero hi hz (fun v h' v' _ hb e => ?_) e
    unfold pop at e
    split at e
    · cases e
    · obtain ⟨⟨h1, v1, nl⟩, e1, e⟩ := bind_ok e
      cases e; exact (spliceRaw_fine hb e1).1
  | shift i =>
    simp only [step] at e
    refine upd_zero hi hz (fun v h' v' _ hb e => ?_) e
    unfold shift1 at e
    split at e
    · cases e
    · obtain ⟨⟨h1, v1, nl⟩, e1, e⟩ := bind_ok e
      cases e; exact (spliceRaw_fine hb e1).1
  | spliceDel i idx del =>
    simp only [step] at e
    refine upd_zero hi hz (fun v h' v' _ hb e => ?_) e
    obtain ⟨⟨h1, v1, nl⟩, e1, e⟩ := bind_ok e
    cases e; exact (spliceRaw_fine hb e1).1
  | spliceEmpty i zf idx del c =>
    simp only [step] at e
    refine upd_zero hi hz (fun v h' v' _ hb e => ?_) e
    obtain ⟨⟨h1, v1, nl⟩, e1, e⟩ := bind_ok e
    exact (spliceRaw_fine hb e1).1.then (defInit_hdr e).1 (defInit_hdr e).2
  | shiftPop i a b =>
    simp only [step] at e
    refine upd_zero hi hz (fun v h' v' _ hb e => ?_) e
    obtain ⟨⟨h1, v1, nl⟩, e1, e⟩ := bind_ok e
    cases e; exact (spliceRaw_fine hb e1).1
  | reserve i c =>
    simp only [step] at e
    exact upd_zero hi hz (fun v h' v' _ hb e => reserve_fine hb e) e
  | set i k x =>
    simp only [step] at e
    refine upd_zero hi hz (fun v h' v' _ hb e => ?_) e
    unfold set at e
    obtain ⟨⟨h1, v1⟩, e1, e⟩ := bind_ok e
    have hf : Fine (live (s.vars.set i none)) v v1 := by
      unfold makeUnique at e1
      split at e1
      · exact reserve_fine hb e1
      · cases e1; exact Fine.refl _ _
    simp only at e
    split at e
    · obtain ⟨_, _, e⟩ := bind_ok e
      split at e
      · split at e
        · exact hf.then (storeCells_hdr e).1 (storeCells_hdr e).2.1
        · cases e
      · cases e
    · cases e
  | get i k =>
    obtain ⟨v, e1, e⟩ := bind_ok e
    obtain ⟨x, _, e⟩ := bind_ok e
    cases e; exact hz
  | spliceMove i idx del j =>
    simp only [step] at e
    split at e
    · cases e
    · rename_i hne
      obtain ⟨v, e0, e⟩ := bind_ok e
      obtain ⟨src, e1, e⟩ := bind_ok e
      obtain ⟨⟨h1, v1, s1⟩, e2, e⟩ := bind_ok e
      obtain ⟨h2, _, e⟩ := bind_ok e
      cases e
      have hv := var_ok e0
      have hf := spliceMove_fine (Base.of_inv (hi.perm (live_get hv))) e2
      have := zero_set hz hv hf
      rw [← List.set_comm _ _ hne]
      exact this.sub (live_set_none_sub _ _)
  | appendMove i del j =>
    simp only [step] at e
    split at e
    · cases e
    · rename_i hne
      obtain ⟨v, e0, e⟩ := bind_ok e
      obtain ⟨src, e1, e⟩ := bind_ok e
      obtain ⟨⟨h1, v1, s1⟩, e2, e⟩ := bind_ok e
      obtain ⟨h2, _, e⟩ := bind_ok e
      cases e
      have hv := var_ok e0
      have hf := appendMove_fine (Base.of_inv (hi.perm (live_get hv))) e2
      have := zero_set hz hv hf
      rw [← List.set_comm _ _ hne]
      exact this.sub (live_set_none_sub _ _)
  | spliceCopy i idx del j a n adj =>
    obtain ⟨w, e0, e⟩ := bind_ok e
    exact upd_zero hi hz (fun v h' v' _ hb e => spliceCopy_fine hb e) e
  | appendCopy i del j a n adj =>
    obtain ⟨w, e0, e⟩ := bind_ok e
    exact upd_zero hi hz (fun v h' v' _ hb e => appendCopy_fine hb e) e

end Verif.Vec
