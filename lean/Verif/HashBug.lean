import Verif.HashProps
import Mathlib.Tactic.Tauto
/-!
# Probing, faults and the histories on which the map fails

`increase_capacity` can strand an entry: when the entry it is moving meets no free slot before it comes round to its own,
the loop gives up on it (`continue :NEXT`, lib/hash.fu:275-276) and leaves it where no search looks.  The histories below
use small integer keys and the hash `k % 16`; for the keys below 16 this is `PassthroughHasher` of the map's own tests
(lib/hash.fu:655-656).
-/
namespace Verif.Hash
variable {K V : Type} [DecidableEq K]

/-! ## Safe histories can be checked -/

/-- A check for `RefSafe`: follows the growths. -/
def refSafeB (key : K) (hash : Nat) : Nat → Map K V → Bool
  | 0, _ => false
  | n + 1, m =>
    match route m key hash, increaseCapacity m.index with
    | .ok .unavail, .ok idx => verifyIndex idx && refSafeB key hash n ⟨idx, m.data⟩
    | .ok .unavail, _ => false
    | _, _ => true

theorem refSafeB_sound {key : K} {hash : Nat} (n : Nat) (m : Map K V) (h : refSafeB key hash n m = true) :
    RefSafe m key hash := by
  induction n generalizing m with
  | zero => exact absurd h (by simp [refSafeB])
  | succ n ih =>
    intro j m' hj hg
    obtain ⟨m0, e0, r0⟩ := hj 0 (by omega)
    have : m0 = m := (Except.ok.inj e0).symm
    subst this
    unfold refSafeB at h
    rw [r0] at h
    simp only [growths, bind, Except.bind] at hg
    cases hi : increaseCapacity m0.index with
    | error e => rw [hi] at hg; cases hg
    | ok idx =>
      rw [hi] at h hg
      simp only [Bool.and_eq_true] at h hg
      cases j with
      | zero =>
        have : (⟨idx, m0.data⟩ : Map K V) = m' := Except.ok.inj hg
        rw [← this]; exact h.1
      | succ j =>
        refine ih ⟨idx, m0.data⟩ h.2 j m' ?_ hg
        intro i hi'
        obtain ⟨mj, ej, rj⟩ := hj (i + 1) (by omega)
        refine ⟨mj, ?_, rj⟩
        simpa only [growths, bind, Except.bind, hi] using ej

/-- A check for `Safe`. -/
def safeB (h : K → Int) (dflt : V) : Map K V → List (Op K V) → Bool
  | _, [] => true
  | m, op :: ops =>
    (match op with
      | .set k _ => refSafeB k (foldSign (h k)) (m.index.length + 2) m
      | .update k _ _ => refSafeB k (foldSign (h k)) (m.index.length + 2) m
      | _ => true) &&
    match step h dflt m op with
    | .ok (m', _) => safeB h dflt m' ops
    | .error _ => true

theorem safeB_sound {h : K → Int} {dflt : V} (m : Map K V) (ops : List (Op K V)) (s : safeB h dflt m ops = true) :
    Safe h dflt m ops := by
  induction ops generalizing m with
  | nil => trivial
  | cons op ops ih =>
    unfold safeB at s
    rw [Bool.and_eq_true] at s
    refine ⟨?_, fun m' o e => ?_⟩
    · have s1 := s.1
      cases op <;> first | trivial | exact refSafeB_sound _ _ s1
    · have s2 := s.2
      rw [e] at s2
      exact ih m' s2

/-! ## No fault -/

theorem run_wf (h : K → Int) (dflt : V) (ops : List (Op K V)) (m : Map K V) (w : WF (fun k => foldSign (h k)) m)
    (safe : Safe h dflt m ops) : ∃ m' outs, run h dflt m ops = .ok (m', outs) ∧ WF (fun k => foldSign (h k)) m' := by
  induction ops generalizing m with
  | nil => exact ⟨m, [], rfl, w⟩
  | cons op ops ih =>
    obtain ⟨m1, o, s1, e, w1, _, _⟩ := step_ok h dflt m w op safe.1 _ (List.Perm.refl _)
    obtain ⟨m2, outs, e2, w2⟩ := ih m1 w1 (safe.2 m1 o e)
    refine ⟨m2, o :: outs, ?_, w2⟩
    simp only [run, bind, Except.bind, e, e2]

/-- A call on a healthy map ends without a fault, even when its growth goes wrong. -/
theorem step_total (h : K → Int) (dflt : V) (m : Map K V) (w : WF (fun k => foldSign (h k)) m) (op : Op K V) :
    ∃ m' o, step h dflt m op = .ok (m', o) := by
  have ref : ∀ k f init, ∃ m', refm m k (foldSign (h k)) f init = .ok m' := by
    intro k f init
    have hc : cnt m.index ≤ m.index.length := List.countP_le_length
    obtain ⟨m1, pos, e, e1, h0, he⟩ := refLoop_total (hf := fun k => foldSign (h k)) k init (m.index.length + 2) m w.weak
      (by omega) (by omega)
    unfold refm
    rw [e1]
    simp only [bind, Except.bind]
    rw [modValue_ok f h0 he]
    exact ⟨_, rfl⟩
  by_cases c : OpSafe h m op
  · obtain ⟨m', o, _, e, _⟩ := step_ok h dflt m w op c _ (List.Perm.refl _)
    exact ⟨m', o, e⟩
  · cases op with
    | set k v =>
      obtain ⟨m', e⟩ := ref k (fun _ => v) dflt
      exact ⟨m', .unit, by simp only [step, set, bind, Except.bind]; rw [e]⟩
    | update k f init =>
      obtain ⟨m', e⟩ := ref k f init
      exact ⟨m', .unit, by simp only [step, bind, Except.bind]; rw [e]⟩
    | _ => exact absurd trivial c

/-! ## `Verify` -/

omit [DecidableEq K] in
/-- The bits set by the walk of a bucket. -/
theorem verifyChain_ok {d : List (DEnt K V)} (n a : Nat) (L : List Nat) (s : Seg d a L 0) (hn : L.length < n)
    (nd : L.Nodup) (reach : List Bool) (hl : reach.length = d.length) (clean : ∀ x ∈ L, reach[x - 1]? = some false)
    (pos : ∀ x ∈ L, x ≠ 0) :
    ∃ reach', verifyChain d n reach a = .ok (some reach') ∧ reach'.length = d.length ∧
      ∀ i, reach'[i]? = if i + 1 ∈ L then some true else reach[i]? := by
  induction n generalizing a L reach with
  | zero => omega
  | succ n ih =>
    cases L with
    | nil =>
      have : a = 0 := s
      subst this
      exact ⟨reach, by unfold verifyChain; rw [if_pos rfl], hl, by simp⟩
    | cons x L =>
      obtain ⟨hax, h0, c, hc, s'⟩ := s
      have : x = a := by first | exact hax | exact hax.symm
      clear hax
      subst this
      have hx := clean x (by simp)
      unfold verifyChain
      rw [if_neg h0]
      unfold cl at hc
      obtain ⟨e, he, rfl⟩ := Option.map_eq_some_iff.mp hc
      have hlt := (List.getElem?_eq_some_iff.mp hx).1
      have e1 : dat d x = .ok e := by unfold dat; rw [if_neg h0]; unfold rd; rw [he]
      have e2 : rd reach (x - 1) = .ok false := by unfold rd; rw [hx]
      rw [e1, e2, wr_ok hlt]
      simp only [bind, Except.bind, Bool.false_eq_true, if_false]
      rw [List.nodup_cons] at nd
      obtain ⟨r', er, lr, hr⟩ := ih e.coll L s' (by simp at hn; omega) nd.2 (reach.set (x - 1) true) (by simpa using hl)
        (by
          intro y hy
          have hy0 := pos y (by simp [hy])
          have : x ≠ y := fun q => nd.1 (q ▸ hy)
          rw [List.getElem?_set_ne (by omega)]
          exact clean y (by simp [hy]))
        (fun y hy => pos y (by simp [hy]))
      refine ⟨r', er, lr, ?_⟩
      intro i
      rw [hr i, List.getElem?_set]
      simp only [List.mem_cons]
      by_cases c1 : i + 1 ∈ L
      · rw [if_pos c1, if_pos (Or.inr c1)]
      · rw [if_neg c1]
        by_cases c2 : i + 1 = x
        · rw [if_pos (show x - 1 = i by omega), if_pos hlt, if_pos (Or.inl c2)]
        · rw [if_neg (show x - 1 ≠ i by omega), if_neg (by tauto)]

theorem verifyChains_ok {idx : List IEnt} {d : List (DEnt K V)} {ch : Nat → List Nat} (l : Linked idx d 0 ch) (uq : Uniq idx)
    (es : List IEnt) (sub : es.Sublist idx) (reach : List Bool) (hl : reach.length = d.length)
    (clean : ∀ e ∈ es, e.pos ≠ 0 → ∀ x ∈ ch e.hash, reach[x - 1]? = some false) :
    ∃ reach', verifyChains d es reach = .ok (some reach') ∧ reach'.length = d.length ∧
      ∀ i, reach'[i]? = if (∃ e ∈ es, e.pos ≠ 0 ∧ i + 1 ∈ ch e.hash) then some true else reach[i]? := by
  induction es generalizing reach with
  | nil => exact ⟨reach, rfl, hl, by simp⟩
  | cons e es ih =>
    have sub' : es.Sublist idx := (List.sublist_cons_self e es).trans sub
    have pw : (e :: es).Pairwise (fun a b => a.pos ≠ 0 → b.pos ≠ 0 → a.hash ≠ b.hash) := uq.sublist sub
    rw [List.pairwise_cons] at pw
    unfold verifyChains
    by_cases c : e.pos = 0
    · rw [if_pos c]
      obtain ⟨r, er, lr, hr⟩ := ih sub' reach hl (fun e' he' => clean e' (by simp [he']))
      refine ⟨r, er, lr, fun i => ?_⟩
      rw [hr i]
      simp [c]
    · rw [if_neg c]
      have hmem : e ∈ idx := sub.subset (by simp)
      obtain ⟨p, hp, ep⟩ := mem_at hmem
      have seg := l.head p hp (by unfold Occ; rw [ep]; exact c)
      rw [ep] at seg
      have lle := l.length_le e.hash
      obtain ⟨r, er, lr, hr⟩ := verifyChain_ok (d.length + 1) e.pos (ch e.hash) seg (by omega) (l.nodup _) reach hl
        (clean e (by simp) c) (fun x hx => ((l.mem _ _).mp hx).1)
      rw [er]
      simp only [bind, Except.bind]
      obtain ⟨r2, er2, lr2, hr2⟩ := ih sub' r lr (by
        intro e' he' c' x hx
        have hx0 := ((l.mem _ _).mp hx).1
        have hne : x ∉ ch e.hash := by
          intro hx'
          obtain ⟨_, _, a, ha, ea⟩ := (l.mem _ _).mp hx
          obtain ⟨_, _, b, hb, eb⟩ := (l.mem _ _).mp hx'
          rw [ha] at hb
          cases hb
          exact pw.1 e' he' c c' (eb.symm.trans ea)
        rw [hr (x - 1), show x - 1 + 1 = x by omega, if_neg hne]
        exact clean e' (by simp [he']) c' x hx)
      refine ⟨r2, er2, lr2, fun i => ?_⟩
      rw [hr2 i, hr i]
      by_cases c1 : ∃ e' ∈ es, e'.pos ≠ 0 ∧ i + 1 ∈ ch e'.hash
      · rw [if_pos c1, if_pos]
        obtain ⟨e', he', h'⟩ := c1
        exact ⟨e', by simp [he'], h'⟩
      · rw [if_neg c1]
        by_cases c2 : i + 1 ∈ ch e.hash
        · rw [if_pos c2, if_pos ⟨e, by simp, c, c2⟩]
        · rw [if_neg c2, if_neg]
          rintro ⟨e', he', h'⟩
          rcases List.mem_cons.mp he' with rfl | he'
          · exact c2 h'.2
          · exact c1 ⟨e', he', h'⟩

/-- A healthy map passes all assertions of `Verify`. -/
theorem WF.verify {hf : K → Nat} {m : Map K V} (w : WF hf m) : Verif.Hash.verify m = .ok true := by
  unfold Verif.Hash.verify
  rw [if_pos ((verifyIndex_iff _).mpr w.rh)]
  obtain ⟨ch, l⟩ := w.linked
  obtain ⟨r, er, lr, hr⟩ := verifyChains_ok l w.uq m.index (List.Sublist.refl _) (List.replicate m.data.length false)
    (by simp) (by
      intro e _ _ x hx
      obtain ⟨_, p⟩ := (l.mem _ _).mp hx
      have := p.le
      rw [List.getElem?_replicate, if_pos (by omega)])
  rw [er]
  simp only [bind, Except.bind]
  have : r = List.replicate m.data.length true := by
    apply List.ext_getElem?
    intro i
    rw [hr i, List.getElem?_replicate, List.getElem?_replicate]
    by_cases c : i < m.data.length
    · rw [if_pos c, if_pos c, if_pos]
      have hm : i + 1 ∈ ch (m.data[i]).hash := (l.mem _ _).mpr ⟨by omega, by omega, m.data[i], by simp [c], rfl⟩
      obtain ⟨p, hp, op, eh⟩ := l.slot (m.data[i]).hash (fun h => by rw [h] at hm; simp at hm)
      exact ⟨at' m.index p, at_mem hp, op, by rw [eh]; exact hm⟩
    · rw [if_neg c, if_neg c, if_neg]
      rintro ⟨e, _, _, hm⟩
      have := ((l.mem _ _).mp hm).2.le
      omega
  rw [this]
  simp

/-- **C18** (partial: for histories whose growths leave an index that passes `Verify`, followed by any one call, whose
growth may go wrong; `C18_oob` shows that the unrestricted statement is false).  No access is out of range and every loop
ends; until that last call every entry lies fewer than `max_probes` slots after its ideal slot, and all other assertions of
`Verify` hold. -/
theorem C18_total_partial (h : K → Int) (dflt : V) (ops : List (Op K V)) (op : Op K V) (safe : Safe h dflt Map.empty ops) :
    ∃ m outs m' o, run h dflt Map.empty ops = .ok (m, outs) ∧ step h dflt m op = .ok (m', o) ∧
      Verif.Hash.verify m = .ok true ∧
      ∀ p e, m.index[p]? = some e → e.pos ≠ 0 → dist m.index.length p e.hash < maxProbes m.index.length := by
  obtain ⟨m, outs, e, w⟩ := run_wf h dflt ops Map.empty (WF.empty _) safe
  obtain ⟨m', o, e'⟩ := step_total h dflt m w op
  refine ⟨m, outs, m', o, e, e', w.verify, ?_⟩
  intro p ent hp h0
  obtain ⟨hlt, he⟩ := List.getElem?_eq_some_iff.mp hp
  have ha : at' m.index p = ent := by unfold at'; rw [List.getD_eq_getElem _ _ hlt]; exact he
  have := w.rh.bound p hlt (by unfold Occ; rw [ha]; exact h0)
  unfold D at this
  rwa [ha] at this

/-! ## The failures -/

/-- The hash of the witnesses. -/
def hash16 (k : Nat) : Int := ((k % 16 : Nat) : Int)

/-- Whether a run ends well and the check holds of its result. -/
def holds {α : Type} (r : Except Err α) (p : α → Bool) : Bool :=
  match r with
  | .ok a => p a
  | .error _ => false

theorem of_holds {α : Type} {r : Except Err α} {p : α → Bool} (h : holds r p = true) : ∃ a, r = .ok a ∧ p a = true := by
  cases r with
  | ok a => exact ⟨a, rfl, h⟩
  | error e => exact absurd h (by simp [holds])

/-- Set 5, 13, 6, 7 and 4, then look up 5. -/
def lostHistory : List (Op Nat Nat) := [.set 5 5, .set 13 13, .set 6 6, .set 7 7, .set 4 4, .get 5]

/-- The last answer. -/
def lastIsNone : List (Out Nat Nat) → Bool
  | [] => false
  | [.value none] => true
  | [_] => false
  | _ :: os => lastIsNone os

/-- **C17 is false without the restriction**: a key that has been set five calls ago and never removed is not found. -/
theorem C17_lost_key : ∃ m outs, run hash16 0 Map.empty lostHistory = .ok (m, outs) ∧ outs.getLast? = some (.value none) ∧
    ∀ s outs', SpecRun [] lostHistory s outs' → outs'.getLast? = some (.value (some 5)) := by
  obtain ⟨⟨m, outs⟩, e, hc⟩ := of_holds (r := run hash16 0 Map.empty lostHistory) (p := fun r => lastIsNone r.2)
    (by decide +kernel)
  refine ⟨m, outs, e, ?_, ?_⟩
  · have : ∀ l, lastIsNone l = true → l.getLast? = some (.value none) := by
      intro l
      induction l with
      | nil => intro h; exact absurd h (by simp [lastIsNone])
      | cons a l ih =>
        intro h
        cases l with
        | nil =>
          cases a with
          | value v => cases v with
            | none => rfl
            | some v => exact absurd h (by simp [lastIsNone])
          | _ => exact absurd h (by simp [lastIsNone])
        | cons b l =>
          rw [List.getLast?_cons_cons]
          exact ih (by simpa [lastIsNone] using h)
    exact this outs hc
  · intro s outs' sp
    unfold lostHistory at sp
    cases sp with | cons _ _ _ _ _ _ _ a sp =>
    cases a
    cases sp with | cons _ _ _ _ _ _ _ a sp =>
    cases a
    cases sp with | cons _ _ _ _ _ _ _ a sp =>
    cases a
    cases sp with | cons _ _ _ _ _ _ _ a sp =>
    cases a
    cases sp with | cons _ _ _ _ _ _ _ a sp =>
    cases a
    cases sp with | cons _ _ _ _ _ _ _ a sp =>
    cases a
    cases sp
    rfl

/-- The same key can be in the map twice: `len` counts a key twice after these calls, which leave five keys. -/
theorem C17_duplicate_key : ∃ m outs, run (fun k : Nat => (k : Int)) 0 Map.empty
      [.set 13 13, .set 5 5, .set 6 6, .set 7 7, .set 15 15, .remove 6, .set 5 5, .set 12 12, .set 13 13] = .ok (m, outs) ∧
    (ents m).map Prod.fst = [13, 5, 15, 7, 12, 13] ∧ len m = 6 := by
  obtain ⟨⟨m, outs⟩, e, hc⟩ := of_holds (r := run (fun k : Nat => (k : Int)) 0 Map.empty
      [.set 13 13, .set 5 5, .set 6 6, .set 7 7, .set 15 15, .remove 6, .set 5 5, .set 12 12, .set 13 13])
    (p := fun r => (ents r.1).map Prod.fst == [13, 5, 15, 7, 12, 13] && len r.1 == 6) (by decide +kernel)
  refine ⟨m, outs, e, ?_⟩
  rw [Bool.and_eq_true, beq_iff_eq, beq_iff_eq] at hc
  exact hc

/-- Whether a run ends with an access out of range. -/
def isOob {α : Type} : Except Err α → Bool
  | .error .oob => true
  | _ => false

theorem of_isOob {α : Type} {r : Except Err α} (h : isOob r = true) : r = .error .oob := by
  cases r with
  | ok a => exact absurd h (by simp [isOob])
  | error e => cases e with
    | oob => rfl
    | fuel => exact absurd h (by simp [isOob])

/-- **C18 is false without the restriction**: an access out of range.  The entry of 37 is in a bucket that was stranded;
when `remove` moves it, the link to it is not found and goes stale; the last `set` follows the stale link. -/
theorem C18_oob : run hash16 0 Map.empty
    ([.set 5 5, .set 13 13, .set 6 6, .set 7 7, .set 29 29, .set 37 37, .set 19 19, .remove 19, .remove 13, .set 5 5] :
      List (Op Nat Nat)) = .error .oob :=
  of_isOob (by decide +kernel)

/-- The probe distance of a stranded entry is not below the limit. -/
theorem C18_limit_exceeded : ∃ m outs, run hash16 0 Map.empty lostHistory = .ok (m, outs) ∧
    m.index.length = 8 ∧ m.index[0]? = some ⟨5, 1⟩ ∧ dist 8 0 5 = maxProbes 8 := by
  obtain ⟨⟨m, outs⟩, e, hc⟩ := of_holds (r := run hash16 0 Map.empty lostHistory)
    (p := fun r => r.1.index.length == 8 && r.1.index[0]? == some ⟨5, 1⟩) (by decide +kernel)
  refine ⟨m, outs, e, ?_⟩
  rw [Bool.and_eq_true, beq_iff_eq, beq_iff_eq] at hc
  exact ⟨hc.1, hc.2, by decide⟩

/-! ## Safe histories exist -/

/-- A history with three growths, a shared bucket, removals and visits. -/
def goodHistory : List (Op Nat Nat) :=
  [.set 1 10, .set 17 11, .set 2 12, .update 33 (· + 1) 5, .set 6 13, .modify 17 (· * 2), .remove 1, .set 3 14, .get 17,
   .each (fun _ k v => (v + 1, k == 2)), .set 7 1, .set 4 3, .set 12 9, .len, .remove 99, .remove 33, .get 2]

example : Safe hash16 0 Map.empty goodHistory := safeB_sound _ _ (by decide +kernel)

/-- The history does grow the index to eight slots, and its last answers are those of a map. -/
example : holds (run hash16 0 Map.empty goodHistory) (fun r => r.1.index.length == 8 && lastIsNone r.2) = true := by
  decide +kernel
end Verif.Hash
