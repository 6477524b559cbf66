import Verif.RandPeriod
import Mathlib.Data.List.Nodup
/-!
# C25, C49: shuffling, and random numbers under concurrency
-/
namespace Verif.Rand
open Verif

/-! ## `next_u64` under concurrency -/

theorem scramble_injective : Function.Injective scramble := by
  intro x y h
  have hinv : 0x2545f4914f6cdd1d#64 * 0x59071d96d81ecd35#64 = 1#64 := by decide
  have := congrArg (· * 0x59071d96d81ecd35#64) h
  simp only [scramble, BitVec.mul_assoc, hinv, BitVec.mul_one] at this
  exact this

theorem seed_nonzero (sec usec : BitVec 64) : seed sec usec ≠ 0#64 := by
  have h1 : (1#64 ||| usec ||| (sec <<< 32)) ≠ 0#64 := by
    intro h
    have := congrArg (fun x => x.getLsbD 0) h
    simp at this
  have : ∀ n, Nat.repeat step64 n (1#64 ||| usec ||| (sec <<< 32)) ≠ 0#64 := by
    intro n
    induction n with
    | zero => exact h1
    | succ n ih => exact fun h => ih ((step64_bijective.2.2 _).1 h)
  exact this 16

/-- The invariant: `n` numbers were handed out, they are the first `n` states after the seed (scrambled), in order. -/
theorem reachable_log (s0 : BitVec 64) (s : State) (h : Reachable s0 s) :
    s.shared = step64^[s.log.length] s0 ∧
    s.log = ((List.range s.log.length).map fun k => scramble (step64^[k + 1] s0)).reverse := by
  induction h with
  | init => exact ⟨rfl, rfl⟩
  | step _ hs ih =>
    cases hs with
    | load t h => exact ih
    | casFail t prev h => exact ih
    | casOk t prev h he =>
      obtain ⟨i1, i2⟩ := ih
      subst he
      refine ⟨?_, ?_⟩
      · simp only [List.length_cons]
        rw [Function.iterate_succ_apply', ← i1]
      · simp only [List.length_cons]
        rw [List.range_succ, List.map_append, List.reverse_append, ← i2, i1]
        simp only [List.map_cons, List.map_nil, List.reverse_cons, List.reverse_nil, List.nil_append, List.singleton_append]
        rw [Function.iterate_succ_apply']

/-- **C49.** Whatever the interleaving of the threads calling `next_u64`, the numbers handed out - to whichever thread - are
pairwise distinct as long as there are fewer than `2^64` of them, whatever the clock said when the process started. -/
theorem next_u64_never_repeats (sec usec : BitVec 64) (s : State) (h : Reachable (seed sec usec) s)
    (hlen : s.log.length ≤ 2 ^ 64 - 1) : s.log.Nodup := by
  obtain ⟨-, e⟩ := reachable_log _ s h
  rw [e, List.nodup_reverse]
  refine List.Nodup.map_on ?_ List.nodup_range
  intro a ha b hb hab
  rw [List.mem_range] at ha hb
  have h0 := seed_nonzero sec usec
  have h1 := scramble_injective hab
  rw [Function.iterate_succ_apply', Function.iterate_succ_apply'] at h1
  exact (step64_full_period _ h0).2 a b (by omega) (by omega) (step64_bijective.1.1 h1)

/-- **C49 (order).** In every schedule the `k`-th number handed out, whichever thread received it, is the `k`-th number
of the sequential generator: no value of the sequence is skipped or handed out twice. -/
theorem next_u64_order (s0 : BitVec 64) (s : State) (h : Reachable s0 s) :
    ∀ k, (hk : k < s.log.length) → s.log.reverse[k]'(by simpa using hk) = scramble (step64^[k + 1] s0) := by
  intro k hk
  obtain ⟨-, e⟩ := reachable_log _ s h
  have : s.log.reverse = (List.range s.log.length).map fun k => scramble (step64^[k + 1] s0) := by
    conv => lhs; rw [e]
    rw [List.reverse_reverse]
  simp [this]

/-! ## Shuffle -/

variable {α : Type}

theorem swap_ok (l : List α) (i j : Nat) (hi : i < l.length) (hj : j < l.length) :
    swap l i j = some ((l.set i l[j]).set j l[i]) := by
  simp [swap, hi, hj]

theorem swap_perm (l : List α) (i j : Nat) (hi : i < l.length) (hj : j < l.length) :
    ((l.set i l[j]).set j l[i]).Perm l := List.set_set_perm hi hj

/-- **C25.** For every array and every seed `shuffle` returns (no out-of-range access) a permutation of the array. -/
theorem shuffle_permutes (arr : List α) (s : BitVec 32) : ∃ r s', shuffle arr s = some (r, s') ∧ r.Perm arr := by
  unfold shuffle
  simp only
  obtain ⟨⟨r, s'⟩, e, h⟩ := forUp_inv (lo := 0) (hi := arr.length - 1)
    (s := (arr, if s = 0#32 then BitVec.ofNat 32 arr.length else s))
    (body := fun i (x : List α × BitVec 32) => (do
      let seed := step32 x.2
      let idx := i + seed.toNat % (arr.length - i)
      let a ← swap x.1 i idx
      some (a, seed) : Option (List α × BitVec 32)))
    (P := fun _ x => x.1.Perm arr)
    (Nat.zero_le _) (List.Perm.refl _) (by
      rintro k ⟨a, sd⟩ - hk hp
      have hl : a.length = arr.length := hp.length_eq
      have hm := Nat.mod_lt (step32 sd).toNat (show 0 < arr.length - k by omega)
      refine ⟨((a.set k (a[k + (step32 sd).toNat % (arr.length - k)]'(by omega))).set
        (k + (step32 sd).toNat % (arr.length - k)) (a[k]'(by omega)), step32 sd), ?_, (swap_perm a k (k + (step32 sd).toNat % (arr.length - k)) (by omega) (by omega)).trans hp⟩
      simp only [swap_ok a k (k + (step32 sd).toNat % (arr.length - k)) (by omega) (by omega), Option.bind_eq_bind,
        Option.bind_some])
  exact ⟨r, s', e, h⟩

/-- The concrete generator is one source of draws. -/
theorem shuffle_is_shuffleBy (arr : List α) (s : BitVec 32) :
    ∃ s', shuffle arr s = (shuffleBy (fun i => step32^[i + 1] (if s = 0#32 then BitVec.ofNat 32 arr.length else s)) arr).map
      (·, s') := by
  unfold shuffle shuffleBy
  simp only
  generalize (if s = 0#32 then BitVec.ofNat 32 arr.length else s) = s0
  refine ⟨step32^[arr.length - 1] s0, ?_⟩
  have key : ∀ n lo (a : List α), lo + n = arr.length - 1 →
      forUp lo (arr.length - 1) (a, step32^[lo] s0) (fun i (x : List α × BitVec 32) => (do
        let seed := step32 x.2
        let idx := i + seed.toNat % (arr.length - i)
        let a ← swap x.1 i idx
        some (a, seed) : Option (List α × BitVec 32))) =
      (forUp lo (arr.length - 1) a fun i a => swap a i (i + (step32^[i + 1] s0).toNat % (arr.length - i))).map
        (·, step32^[arr.length - 1] s0) := by
    intro n
    induction n with
    | zero =>
      intro lo a h
      have : lo = arr.length - 1 := by omega
      subst this
      rw [forUp, forUp]; simp
    | succ n ih =>
      intro lo a h
      rw [forUp, forUp, if_pos (by omega), if_pos (by omega)]
      rw [← Function.iterate_succ_apply' step32 lo s0]
      cases hsw : swap a lo (lo + (step32^[lo + 1] s0).toNat % (arr.length - lo)) with
      | none => simp only [hsw]; rfl
      | some a' =>
        simp only [hsw, Option.bind_eq_bind, Option.bind_some]
        exact ih (lo + 1) a' (by omega)
  exact key (arr.length - 1) 0 arr (by omega)

/-- **C25 (reachability).** Every permutation of the array is the result of some sequence of random words. -/
theorem shuffle_reaches_all (arr t : List α) (h : t.Perm arr) (hl : arr.length < 2 ^ 32) :
    ∃ draw, shuffleBy draw arr = some t := by
  unfold shuffleBy
  have key : ∀ n lo (a : List α), lo + n = arr.length - 1 → a.Perm t → a.take lo = t.take lo →
      ∃ draw : Nat → BitVec 32,
        forUp lo (arr.length - 1) a (fun i a => swap a i (i + (draw i).toNat % (arr.length - i))) = some t := by
    intro n
    induction n with
    | zero =>
      intro lo a hlo hp ht
      refine ⟨fun _ => 0#32, ?_⟩
      rw [forUp, if_neg (by omega)]
      have hlen : a.length = arr.length := hp.length_eq.trans h.length_eq
      have htlen : t.length = arr.length := h.length_eq
      have ha := List.take_append_drop lo a
      have htt := List.take_append_drop lo t
      have hp2 : (a.drop lo).Perm (t.drop lo) := by
        rw [← ha, ← htt, ht] at hp
        exact (List.perm_append_left_iff _).1 hp
      congr 1
      rw [← ha, ← htt, ht]
      congr 1
      have l1 : (a.drop lo).length ≤ 1 := by rw [List.length_drop]; omega
      match ea : a.drop lo, l1 with
      | [], _ => rw [ea] at hp2; exact (List.nil_perm.1 hp2).symm
      | [x], _ => rw [ea] at hp2; exact List.singleton_perm.1 hp2
    | succ n ih =>
      intro lo a hlo hp ht
      have hlen : a.length = arr.length := hp.length_eq.trans h.length_eq
      have htlen : t.length = arr.length := h.length_eq
      have hp2 : (a.drop lo).Perm (t.drop lo) := by
        rw [← List.take_append_drop lo a, ← List.take_append_drop lo t, ht] at hp
        exact (List.perm_append_left_iff _).1 hp
      have hlt : lo < t.length := by omega
      have hmem : t[lo] ∈ a.drop lo := by
        rw [hp2.mem_iff, List.drop_eq_getElem_cons hlt]; exact List.mem_cons_self
      obtain ⟨d, hd, he⟩ := List.mem_iff_getElem.1 hmem
      rw [List.length_drop] at hd
      rw [List.getElem_drop] at he
      -- the element wanted is at index lo + d
      have hsw := swap_ok a lo (lo + d) (by omega) (by omega)
      obtain ⟨draw, hdraw⟩ := ih (lo + 1) ((a.set lo a[lo + d]).set (lo + d) a[lo]) (by omega)
        ((swap_perm a lo (lo + d) (by omega) (by omega)).trans hp) (by
          apply List.ext_getElem?
          intro i
          rw [List.getElem?_take, List.getElem?_take]
          by_cases hi : i < lo + 1
          · rw [if_pos hi, if_pos hi]
            by_cases hi2 : i < lo
            · rw [List.getElem?_set, if_neg (by omega), List.getElem?_set, if_neg (by omega)]
              have := congrArg (fun l => l[i]?) ht
              simpa [List.getElem?_take, hi2] using this
            · have : i = lo := by omega
              subst this
              rw [List.getElem?_set]
              by_cases hd0 : d = 0
              · subst hd0
                simp only [Nat.add_zero] at he ⊢
                rw [if_pos trivial, if_pos (by rw [List.length_set]; omega), List.getElem?_eq_getElem hlt, ← he]
              · rw [if_neg (by omega), List.getElem?_set, if_pos rfl, if_pos (by omega), List.getElem?_eq_getElem hlt, he]
          · rw [if_neg hi, if_neg hi])
      refine ⟨fun i => if i = lo then BitVec.ofNat 32 d else draw i, ?_⟩
      rw [forUp, if_pos (by omega)]
      have hdd : (BitVec.ofNat 32 d).toNat % (arr.length - lo) = d := by
        rw [BitVec.toNat_ofNat, Nat.mod_eq_of_lt (show d < 2 ^ 32 by omega), Nat.mod_eq_of_lt (by omega)]
      simp only [if_true, hdd, hsw]
      rw [← hdraw]
      -- the remaining iterations use indices above lo
      have congr_loop : ∀ m lo' (a : List α), lo < lo' → lo' + m = arr.length - 1 →
          forUp lo' (arr.length - 1) a (fun i a => swap a i
            (i + (if i = lo then BitVec.ofNat 32 d else draw i).toNat % (arr.length - i))) =
          forUp lo' (arr.length - 1) a (fun i a => swap a i (i + (draw i).toNat % (arr.length - i))) := by
        intro m
        induction m with
        | zero => intro lo' a _ hh; rw [forUp, forUp, if_neg (by omega), if_neg (by omega)]
        | succ m ihm =>
          intro lo' a hlt' hh
          conv => lhs; rw [forUp, if_pos (show lo' < arr.length - 1 by omega)]
          conv => rhs; rw [forUp, if_pos (show lo' < arr.length - 1 by omega)]
          simp only [if_neg (show ¬ lo' = lo by omega)]
          cases swap a lo' (lo' + (draw lo').toNat % (arr.length - lo')) with
          | none => rfl
          | some a' => exact ihm (lo' + 1) a' (by omega) (by omega)
      exact congr_loop n (lo + 1) _ (by omega) (by omega)
  exact key (arr.length - 1) 0 arr (by omega) h.symm (by simp)

example : (shuffle [1, 2, 3, 4, 5] 7#32).map (·.1) = some [4, 5, 1, 2, 3] := by decide +kernel
example : step64 1#64 ≠ 1#64 := by decide
example : Reachable (seed 1#64 2#64)
    { shared := step64 (seed 1#64 2#64), threads := fun i => if i = 4 then .idle else if i = 4 then .have_ (seed 1#64 2#64) else .idle,
      log := [scramble (step64 (seed 1#64 2#64))] } :=
  .step (.step .init (.load _ 4 rfl)) (.casOk _ 4 (seed 1#64 2#64) (by simp) rfl)

end Verif.Rand
