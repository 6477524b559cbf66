import Verif.EmbedBits
/-! # Fonts written as source code: the table of code points -/
namespace Verif.Embed

theorem listed_sorted (T : List (BitVec 16)) : (listed T).Pairwise (· < ·) :=
  List.Pairwise.filter _ List.pairwise_lt_range

theorem listed_mem (T : List (BitVec 16)) (c : Nat) : c ∈ listed T ↔ c < T.length ∧ (T.getD c 0 ≠ 0 ∨ c = 0) := by
  unfold listed
  rw [List.mem_filter, List.mem_range, decide_eq_true_eq]

theorem listed_head (T : List (BitVec 16)) (h : T ≠ []) : (listed T).head? = some 0 := by
  unfold listed
  cases T with
  | nil => exact absurd rfl h
  | cons a t =>
    rw [List.length_cons, List.range_succ_eq_map, List.filter_cons_of_pos (by simp)]
    rfl

theorem tableLoop_spec (cps : List (BitVec 16)) (hd : cps.Nodup) : ∀ (n : Nat) (t : List (BitVec 16)), n ≤ cps.length →
    (∀ c ∈ cps, c.toNat < t.length) →
    ∃ r, tableLoop cps t n = some r ∧ r.length = t.length ∧
      (∀ i c, i < n → cps[i]? = some c → r[c.toNat]? = some (BitVec.ofNat 16 i)) ∧
      ∀ k, (∀ i c, i < n → cps[i]? = some c → c.toNat ≠ k) → r[k]? = t[k]? := by
  intro n
  induction n with
  | zero => intro t _ _; exact ⟨t, rfl, rfl, by intro i c h; omega, fun _ _ => rfl⟩
  | succ n ih =>
    intro t hn hb
    have hget : cps[n]? = some cps[n] := List.getElem?_eq_getElem (by omega)
    have hlt := hb cps[n] (List.getElem_mem _)
    unfold tableLoop
    rw [hget]
    simp only
    rw [if_pos hlt]
    obtain ⟨r, e, hr, hin, hout⟩ := ih (t.set cps[n].toNat (BitVec.ofNat 16 n)) (by omega) (by simpa using hb)
    refine ⟨r, e, by simpa using hr, ?_, ?_⟩
    · intro i c hi hc
      by_cases h : i < n
      · exact hin i c h hc
      · have : i = n := by omega
        subst this
        rw [hget] at hc; cases hc
        rw [hout]
        · exact List.getElem?_set_self hlt
        · intro j c' hj hc' he
          have : c' = cps[i] := BitVec.eq_of_toNat_eq he
          subst this
          have hj' : j < cps.length := by omega
          rw [List.getElem?_eq_getElem hj'] at hc'
          have := (List.getElem_inj hd).1 (Option.some.inj hc')
          omega
    · intro k hk
      rw [hout k (fun i c hi => hk i c (by omega))]
      rw [List.getElem?_set_ne (hk n _ (by omega) hget)]

theorem last_max : ∀ (l : List Nat), l.Pairwise (· < ·) → ∀ a ∈ l, a ≤ l.getLastD 0 := by
  intro l
  induction l with
  | nil => simp
  | cons b l ih =>
    intro h a ha
    rw [List.pairwise_cons] at h
    cases l with
    | nil => simp at ha; simp [ha]
    | cons x l =>
      have e : (b :: x :: l).getLastD 0 = (x :: l).getLastD 0 := by simp [List.getLastD_eq_getLast?]
      rw [e]
      rcases List.mem_cons.1 ha with rfl | ha
      · exact Nat.le_trans (Nat.le_of_lt (h.1 x (by simp))) (ih h.2 x (by simp))
      · exact ih h.2 a ha

/-- The table made from the listed code points: code point number `i` of the list leads to glyph `i`, any other leads to
glyph 0. -/
theorem table_listed (T : List (BitVec 16)) (hT : T ≠ []) (hl : T.length ≤ 65536) :
    ∃ r, table ((listed T).map (BitVec.ofNat 16)) = some r ∧
      (∀ i c, (listed T)[i]? = some c → (r.getD c 0).toNat = i) ∧
      ∀ c, c ∉ listed T → r.getD c 0 = 0 := by
  have small : ∀ c ∈ listed T, c < 65536 := fun c hc => by have := ((listed_mem T c).1 hc).1; omega
  have hn : ∀ c ∈ listed T, (BitVec.ofNat 16 c).toNat = c := by
    intro c hc
    rw [BitVec.toNat_ofNat]; exact Nat.mod_eq_of_lt (small c hc)
  have hnd : ((listed T).map (BitVec.ofNat 16)).Nodup := by
    rw [List.Nodup, List.pairwise_map]
    refine List.Pairwise.imp_of_mem ?_ (listed_sorted T)
    intro a b ha hb hab he
    have := congrArg BitVec.toNat he
    rw [hn a ha, hn b hb] at this
    omega
  have hlast : (((listed T).map (BitVec.ofNat 16)).getLastD 0).toNat = (listed T).getLastD 0 := by
    rw [List.getLastD_eq_getLast?, List.getLast?_map, List.getLastD_eq_getLast?]
    cases h : (listed T).getLast? with
    | none => rfl
    | some a => exact hn a (List.mem_of_getLast? h)
  have hle := last_max _ (listed_sorted T)
  have hcard : (listed T).length ≤ 65536 := by
    unfold listed
    have := List.length_filter_le (fun c => decide (T.getD c 0 ≠ 0 ∨ c = 0)) (List.range T.length)
    rw [List.length_range] at this
    omega
  obtain ⟨r, e, hr, hin, hout⟩ := tableLoop_spec ((listed T).map (BitVec.ofNat 16)) hnd
    ((listed T).map (BitVec.ofNat 16)).length (List.replicate ((listed T).getLastD 0 + 1) 0) (Nat.le_refl _) (by
      intro c hc
      obtain ⟨a, ha, rfl⟩ := List.mem_map.1 hc
      rw [hn a ha, List.length_replicate]
      have := hle a ha
      omega)
  refine ⟨r, ?_, ?_, ?_⟩
  · unfold table
    rw [List.head?_map, listed_head T hT, hlast]
    rw [if_pos (by rfl)]
    exact e
  · intro i c hc
    have hi : i < (listed T).length := by
      rcases Nat.lt_or_ge i (listed T).length with h | h
      · exact h
      · rw [List.getElem?_eq_none h] at hc; cases hc
    have := hin i (BitVec.ofNat 16 c) (by simpa using hi) (by rw [List.getElem?_map, hc]; rfl)
    rw [hn c (List.mem_of_getElem? hc)] at this
    rw [List.getD_eq_getElem?_getD, this, Option.getD_some, BitVec.toNat_ofNat]
    exact Nat.mod_eq_of_lt (by omega)
  · intro c hc
    rw [List.getD_eq_getElem?_getD, hout c, List.getElem?_replicate]
    · split <;> rfl
    · intro i a _ ha he
      rw [List.getElem?_map] at ha
      cases hb : (listed T)[i]? with
      | none => rw [hb] at ha; cases ha
      | some b =>
        rw [hb] at ha; cases ha
        have hm := List.mem_of_getElem? hb
        rw [hn b hm] at he
        exact hc (he ▸ hm)

end Verif.Embed
