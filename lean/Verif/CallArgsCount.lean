import Verif.CallArgsCore
import Mathlib.Data.Finset.Card
import Mathlib.Data.List.Nodup
/-!
# Lemmas: counting arguments and parameters
-/
namespace Verif.CallArgs
open Spec

theorem full_of_nodup {l : List Nat} {n : Nat} (hn : l.Nodup) (hl : ∀ j ∈ l, j < n) (h : n ≤ l.length) {j : Nat}
    (hj : j < n) : j ∈ l := by
  have h1 : l.toFinset ⊆ Finset.range n := by
    intro x hx; rw [List.mem_toFinset] at hx; exact Finset.mem_range.2 (hl x hx)
  have h2 : (Finset.range n).card ≤ l.toFinset.card := by
    rw [List.toFinset_card_of_nodup hn, Finset.card_range]; exact h
  have := Finset.eq_of_subset_of_card_le h1 h2
  rw [← List.mem_toFinset, this]; exact Finset.mem_range.2 hj

theorem length_le_of_nodup {l : List Nat} {n : Nat} (hn : l.Nodup) (hl : ∀ j ∈ l, j < n) : l.length ≤ n := by
  have h1 : l.toFinset ⊆ Finset.range n := by
    intro x hx; rw [List.mem_toFinset] at hx; exact Finset.mem_range.2 (hl x hx)
  have := Finset.card_le_card h1
  rwa [List.toFinset_card_of_nodup hn, Finset.card_range] at this

theorem claims_mem {V : List Param} {args : List Arg} {j : Nat} :
    j ∈ claims V args ↔ ∃ p ∈ V, named args p.name = some j := by
  unfold claims; rw [List.mem_filterMap]

theorem claims_nodup {args : List Arg} : ∀ {V : List Param}, (V.map (·.name)).Nodup → (claims V args).Nodup
  | [], _ => List.nodup_nil
  | p :: V, h => by
    rw [List.map_cons, List.nodup_cons] at h
    have ih := claims_nodup (args := args) h.2
    have e : claims (p :: V) args = (match named args p.name with | some j => [j] | none => []) ++ claims V args := by
      unfold claims
      rw [List.filterMap_cons]
      cases named args p.name <;> rfl
    rw [e]
    rcases hn : named args p.name with _ | j
    · simpa using ih
    · simp only [List.singleton_append]
      refine List.nodup_cons.2 ⟨?_, ih⟩
      intro hj
      obtain ⟨q, hq, hq'⟩ := claims_mem.1 hj
      obtain ⟨a, ha, ha'⟩ := named_some hn
      obtain ⟨b, hb, hb'⟩ := named_some hq'
      rw [ha] at hb; cases hb
      exact h.1 (List.mem_map.2 ⟨q, hq, by rw [← hb', ha']⟩)

theorem claims_plus_free (V : List Param) (args : List Arg) :
    (claims V args).length + rank V args V.length = V.length := by
  unfold rank
  rw [List.take_length]
  induction V with
  | nil => rfl
  | cons p V ih =>
    unfold claims at ih ⊢
    rw [List.filterMap_cons, List.filter_cons]
    unfold free
    unfold free at ih
    cases named args p.name <;> simp <;> omega

theorem exists_rank (V : List Param) (args : List Arg) (r : Nat) : ∀ (n : Nat), n ≤ V.length → r < rank V args n →
    ∃ (i : Nat) (p : Param), i < n ∧ V[i]? = some p ∧ free args p = true ∧ rank V args i = r
  | 0, _, h => by simp [rank] at h
  | n + 1, hn, h => by
    rcases hp : V[n]? with _ | p
    · rw [List.getElem?_eq_none_iff] at hp; omega
    · have hs := rank_succ V args hp
      by_cases hr : r < rank V args n
      · obtain ⟨i, q, h1, h2⟩ := exists_rank V args r n (by omega) hr
        exact ⟨i, q, by omega, h2⟩
      · by_cases hf : free args p = true
        · rw [if_pos hf] at hs
          exact ⟨n, p, by omega, hp, hf, by omega⟩
        · rw [if_neg hf] at hs; omega

theorem expect_named {V : List Param} {args : List Arg} {nu i j : Nat} {p : Param} (hp : V[i]? = some p)
    (h : named args p.name = some j) : expect V args nu i = some j := by
  unfold expect; rw [hp]; simp only [h]

theorem expect_free {V : List Param} {args : List Arg} {nu i : Nat} {p : Param} (hp : V[i]? = some p)
    (h : free args p = true) :
    expect V args nu i = if rank V args i < nu then none else (positional args)[rank V args i - nu]? := by
  have : named args p.name = none := by unfold free at h; exact Option.isNone_iff_eq_none.1 h
  unfold expect; rw [hp]; simp only [this]

/-- Positional arguments have room. -/
theorem positional_bound {V : List Param} {args : List Arg} {nu j : Nat}
    (h : (claims V args).length + (positional args).length + nu ≤ V.length) (hj : j ∈ positional args) :
    ∃ i, i < V.length ∧ expect V args nu i = some j := by
  obtain ⟨k, hk⟩ := List.mem_iff_getElem?.1 hj
  have hkl := (List.getElem?_eq_some_iff.1 hk).1
  have hc := claims_plus_free V args
  obtain ⟨i, p, hi, hp, hf, hr⟩ := exists_rank V args (nu + k) V.length (Nat.le_refl _) (by omega)
  refine ⟨i, hi, ?_⟩
  rw [expect_free hp hf, if_neg (by omega), hr, show nu + k - nu = k by omega, hk]

theorem claims_disjoint {V : List Param} {args : List Arg} (hne : ∀ p ∈ V, p.name ≠ "") {j : Nat}
    (hc : j ∈ claims V args) : j ∉ positional args := by
  intro hp
  obtain ⟨p, hpV, hn⟩ := claims_mem.1 hc
  obtain ⟨a, ha, ha'⟩ := named_some hn
  obtain ⟨b, hb, hb'⟩ := positional_mem.1 hp
  rw [ha] at hb; cases hb
  exact hne p hpV (ha'.symm.trans hb')

theorem claims_lt {V : List Param} {args : List Arg} {j : Nat} (hc : j ∈ claims V args) : j < args.length := by
  obtain ⟨p, hpV, hn⟩ := claims_mem.1 hc
  obtain ⟨a, ha, -⟩ := named_some hn
  exact (List.getElem?_eq_some_iff.1 ha).1

theorem positional_lt {args : List Arg} {j : Nat} (hc : j ∈ positional args) : j < args.length := by
  obtain ⟨a, ha, -⟩ := positional_mem.1 hc
  exact (List.getElem?_eq_some_iff.1 ha).1

theorem claims_positional_nodup {V : List Param} {args : List Arg} (hne : ∀ p ∈ V, p.name ≠ "")
    (hd : (V.map (·.name)).Nodup) : (claims V args ++ positional args).Nodup := by
  rw [List.nodup_append]
  refine ⟨claims_nodup hd, positional_nodup args, ?_⟩
  intro a ha b hb e
  subst e
  exact claims_disjoint hne ha hb

theorem claims_positional_le {V : List Param} {args : List Arg} (hne : ∀ p ∈ V, p.name ≠ "")
    (hd : (V.map (·.name)).Nodup) : (claims V args).length + (positional args).length ≤ args.length := by
  rw [← List.length_append]
  apply length_le_of_nodup (claims_positional_nodup hne hd)
  intro j hj
  rcases List.mem_append.1 hj with h | h
  · exact claims_lt h
  · exact positional_lt h

theorem unnamed_count (args : List Arg) : ((args.map (·.name)).filter (· = "")).length = (positional args).length := by
  unfold positional
  have : ∀ (l : List Arg), ((l.map (·.name)).filter (· = "")).length =
      ((List.range l.length).filter (isPositional l)).length := by
    intro l
    induction l using List.reverseRecOn with
    | nil => rfl
    | append_singleton l a ih =>
      rw [List.map_append, List.filter_append, List.length_append, ih, List.length_append, List.length_singleton,
        List.range_succ, List.filter_append, List.length_append]
      congr 1
      · congr 1
        apply List.filter_congr
        intro j hj
        rw [List.mem_range] at hj
        unfold isPositional
        rw [List.getElem?_append_left hj]
      · rw [List.map_singleton, filter_one, filter_one]
        unfold isPositional
        rw [List.getElem?_concat_length]
        by_cases h : a.name = "" <;> simp [h]
  exact this args

theorem collectOptional_nodup (args : List Arg) : (collectOptional args).Nodup :=
  List.Nodup.sublist (List.filter_sublist) List.nodup_range

/-- Every named argument is claimed, or optional. -/
theorem named_claimed {V : List Param} {args : List Arg} (hne : ∀ p ∈ V, p.name ≠ "")
    (hd : (V.map (·.name)).Nodup) (wa : WellFormedArgs args)
    (h : (claims V args).length = args.length ∨
      (claims V args).length + ((args.map (·.name)).filter (· = "")).length +
        ((collectOptional args).filter fun j => !(claims V args).contains j).length = args.length)
    {j : Nat} (hj : j < args.length) :
    j ∈ claims V args ∨ j ∈ positional args ∨ j ∈ collectOptional args := by
  rcases h with h | h
  · exact .inl (full_of_nodup (claims_nodup hd) (fun _ => claims_lt) (by omega) hj)
  · rw [unnamed_count] at h
    have hn : (claims V args ++ positional args ++
        ((collectOptional args).filter fun j => !(claims V args).contains j)).Nodup := by
      rw [List.nodup_append]
      refine ⟨claims_positional_nodup hne hd, (collectOptional_nodup args).sublist List.filter_sublist, ?_⟩
      intro a ha b hb e
      subst e
      rw [List.mem_filter] at hb
      rcases List.mem_append.1 ha with c | c
      · have := hb.2
        simp [c] at this
      · obtain ⟨x, hx, hx'⟩ := collectOptional_mem.1 hb.1
        obtain ⟨y, hy, hy'⟩ := positional_mem.1 c
        rw [hx] at hy; cases hy
        exact wa x (List.mem_of_getElem? hx) hx' hy'
    have hlt : ∀ j ∈ claims V args ++ positional args ++
        ((collectOptional args).filter fun j => !(claims V args).contains j), j < args.length := by
      intro k hk
      rcases List.mem_append.1 hk with c | c
      · rcases List.mem_append.1 c with c | c
        · exact claims_lt c
        · exact positional_lt c
      · obtain ⟨x, hx, -⟩ := collectOptional_mem.1 (List.mem_filter.1 c).1
        exact (List.getElem?_eq_some_iff.1 hx).1
    have := full_of_nodup hn hlt (by rw [List.length_append, List.length_append]; omega) hj
    rcases List.mem_append.1 this with c | c
    · rcases List.mem_append.1 c with c | c
      · exact .inl c
      · exact .inr (.inl c)
    · exact .inr (.inr (List.mem_filter.1 c).1)

/-! ## Hits -/

theorem entries_length (m : List (Option Nat)) : (entries m).length = hits m := by
  induction m with
  | nil => rfl
  | cons x m ih =>
    unfold entries hits at ih ⊢
    cases x <;> simpa [Function.id_def] using ih

theorem entries_mem {m : List (Option Nat)} {j : Nat} : j ∈ entries m ↔ ∃ i : Nat, m[i]? = some (some j) := by
  unfold entries
  rw [List.mem_filterMap]
  constructor
  · rintro ⟨o, ho, e⟩
    simp only [id] at e
    subst e
    exact List.mem_iff_getElem?.1 ho
  · rintro ⟨i, hi⟩
    exact ⟨some j, List.mem_of_getElem? hi, rfl⟩

theorem fullMap_entries {V : List Param} {args : List Arg} {nu j : Nat} :
    j ∈ entries (fullMap V args nu) ↔ ∃ i, expect V args nu i = some j := by
  rw [entries_mem]
  constructor
  · rintro ⟨i, hi⟩
    have hlt : i < V.length := by
      have := (List.getElem?_eq_some_iff.1 hi).1; rwa [fullMap_length] at this
    rw [fullMap_get _ _ _ hlt] at hi
    exact ⟨i, Option.some.inj hi⟩
  · rintro ⟨i, hi⟩
    have hlt : i < V.length := by
      rcases Nat.lt_or_ge i V.length with c | c
      · exact c
      · rw [expect_past _ _ _ c] at hi; cases hi
    exact ⟨i, by rw [fullMap_get _ _ _ hlt, hi]⟩

theorem fullMap_nodup {V : List Param} {args : List Arg} {nu : Nat} (hne : ∀ p ∈ V, p.name ≠ "")
    (hd : (V.map (·.name)).Nodup) : (entries (fullMap V args nu)).Nodup := by
  apply entries_nodup
  intro i k j hi hk
  have h1 : expect V args nu i = some j := by
    have hlt : i < V.length := by
      have := (List.getElem?_eq_some_iff.1 hi).1; rwa [fullMap_length] at this
    rw [fullMap_get _ _ _ hlt] at hi; exact Option.some.inj hi
  have h2 : expect V args nu k = some j := by
    have hlt : k < V.length := by
      have := (List.getElem?_eq_some_iff.1 hk).1; rwa [fullMap_length] at this
    rw [fullMap_get _ _ _ hlt] at hk; exact Option.some.inj hk
  exact expect_inj hne hd h1 h2

/-- When every argument is bound there are as many hits as arguments. -/
theorem hits_eq {V : List Param} {args : List Arg} {nu : Nat} (hne : ∀ p ∈ V, p.name ≠ "")
    (hd : (V.map (·.name)).Nodup) (hall : ∀ j, j < args.length → ∃ i, expect V args nu i = some j) :
    hits (fullMap V args nu) = args.length := by
  rw [← entries_length]
  apply Nat.le_antisymm
  · apply length_le_of_nodup (fullMap_nodup hne hd)
    intro j hj
    obtain ⟨i, hi⟩ := fullMap_entries.1 hj
    exact expect_lt hi
  · have := length_le_of_nodup (l := List.range args.length) (n := args.length) List.nodup_range (by simp)
    have h1 : (List.range args.length).toFinset ⊆ (entries (fullMap V args nu)).toFinset := by
      intro j hj
      rw [List.mem_toFinset, List.mem_range] at hj
      rw [List.mem_toFinset]
      exact fullMap_entries.2 (hall j hj)
    have := Finset.card_le_card h1
    rwa [List.toFinset_card_of_nodup List.nodup_range, List.toFinset_card_of_nodup (fullMap_nodup hne hd),
      List.length_range] at this

/-- Required parameters that got something. -/
def boundReq (V : List Param) (args : List Arg) (nu : Nat) : Nat :=
  ((List.range V.length).filter fun i =>
    (match V[i]? with | some p => Required p | none => false) && (expect V args nu i).isSome).length

theorem filter_split (f g e : Nat → Bool) : ∀ (l : List Nat), (∀ i ∈ l, g i = !f i) →
    (l.filter fun i => f i && e i).length + (l.filter fun i => g i && e i).length = (l.filter e).length
  | [], _ => rfl
  | i :: l, h => by
    have ih := filter_split f g e l fun k hk => h k (by simp [hk])
    have hi := h i (by simp)
    simp only [List.filter_cons, hi]
    cases f i <;> cases e i <;> simp <;> omega

theorem bound_split (V : List Param) (args : List Arg) (nu : Nat) :
    boundReq V args nu + boundOpt V args nu = hits (fullMap V args nu) := by
  unfold boundReq boundOpt hits fullMap
  rw [List.filter_map, List.length_map]
  refine (filter_split (fun i => match V[i]? with | some p => Required p | none => false)
    (fun i => match V[i]? with | some p => !Required p | none => false)
    (fun i => (expect V args nu i).isSome) _ ?_)
  intro i hi
  rw [List.mem_range] at hi
  simp [List.getElem?_eq_getElem hi]

theorem boundReq_le (V : List Param) (args : List Arg) (nu : Nat) :
    boundReq V args nu ≤ (V.filter Required).length ∧
    ((V.filter Required).length ≤ boundReq V args nu ↔
      ∀ (i : Nat) (p : Param), V[i]? = some p → Required p = true → (expect V args nu i).isSome = true) := by
  have hreq : (V.filter Required).length =
      ((List.range V.length).filter fun i => match V[i]? with | some p => Required p | none => false).length := by
    induction V using List.reverseRecOn with
    | nil => rfl
    | append_singleton l a ih =>
      rw [List.filter_append, List.length_append, ih, List.length_append, List.length_singleton,
        List.range_succ, List.filter_append, List.length_append]
      congr 1
      · congr 1
        apply List.filter_congr
        intro j hj
        rw [List.mem_range] at hj
        rw [List.getElem?_append_left hj]
      · rw [filter_one, filter_one, List.getElem?_concat_length]
        rcases h : Required a <;> simp [h]
  have hsub : ((List.range V.length).filter fun i =>
      (match V[i]? with | some p => Required p | none => false) && (expect V args nu i).isSome) =
      ((List.range V.length).filter fun i => match V[i]? with | some p => Required p | none => false).filter
        fun i => (expect V args nu i).isSome := by
    rw [List.filter_filter]
    apply List.filter_congr
    intro i _
    rw [Bool.and_comm]
  constructor
  · unfold boundReq
    rw [hreq, hsub]
    exact List.length_filter_le _ _
  · unfold boundReq
    rw [hreq, hsub]
    constructor
    · intro h i p hp hr
      have := List.length_filter_eq_length_iff.1 (Nat.le_antisymm (List.length_filter_le _ _) h)
      apply this
      rw [List.mem_filter, List.mem_range]
      exact ⟨(List.getElem?_eq_some_iff.1 hp).1, by rw [hp]; exact hr⟩
    · intro h
      apply Nat.le_of_eq
      symm
      rw [List.length_filter_eq_length_iff]
      intro i hi
      rw [List.mem_filter, List.mem_range] at hi
      have hp := List.getElem?_eq_getElem hi.1
      rw [hp] at hi
      exact h i _ hp hi.2

end Verif.CallArgs
