import Verif.CallArgsLemmas
/-!
# Lemmas: dropped misses, stealing, filling
-/
namespace Verif.CallArgs
open Spec

/-! ## Trailing misses -/

/-- The number of parameters that got an argument. -/
def hits (m : List (Option Nat)) : Nat := (m.filter (·.isSome)).length

theorem hits_append (a b : List (Option Nat)) : hits (a ++ b) = hits a + hits b := by
  unfold hits; rw [List.filter_append, List.length_append]

theorem hits_reverse (a : List (Option Nat)) : hits a.reverse = hits a := by
  unfold hits; rw [List.filter_reverse, List.length_reverse]

theorem hits_none (n : Nat) : hits (List.replicate n none) = 0 := by
  unfold hits; simp

theorem hits_plus_misses (m : List (Option Nat)) : hits m + (m.filter (·.isNone)).length = m.length := by
  induction m with
  | nil => rfl
  | cons x m ih =>
    unfold hits at ih ⊢
    cases x <;> simp <;> omega

theorem misses_spec : ∀ (r : List (Option Nat)), ∃ rest, r = List.replicate (misses r).1 none ++ rest ∧
    hits r + (misses r).2 = rest.length
  | [] => ⟨[], rfl, rfl⟩
  | some j :: m => by
    refine ⟨some j :: m, rfl, ?_⟩
    have := hits_plus_misses m
    unfold hits at this ⊢
    simp only [misses, List.filter_cons, Option.isSome_some, if_true, List.length_cons]
    omega
  | none :: m => by
    obtain ⟨rest, e, h⟩ := misses_spec m
    refine ⟨rest, ?_, ?_⟩
    · simp only [misses, List.replicate_succ, List.cons_append]
      rw [← e]
    · unfold hits at h ⊢
      simp only [misses, List.filter_cons]
      simpa using h

theorem dropMisses_spec (map : List (Option Nat)) (nu : Nat) : ∃ k, dropMisses map nu = map.take k ∧
    k ≤ map.length ∧ (∀ i : Nat, k ≤ i → i < map.length → map[i]? = some none) ∧
    (k = map.length ∨ ∃ n, k = hits map + Nat.max n nu) := by
  obtain ⟨rest, e, hr⟩ := misses_spec map.reverse
  rw [hits_reverse] at hr
  have hm : map = rest.reverse ++ List.replicate (misses map.reverse).1 none := by
    have := congrArg List.reverse e
    rw [List.reverse_reverse, List.reverse_append, List.reverse_replicate] at this
    exact this
  generalize ht : (misses map.reverse).1 = t at *
  generalize hn : (misses map.reverse).2 = n at *
  have hlen : map.length = rest.length + t := by rw [hm]; simp
  unfold dropMisses
  simp only [ht, hn]
  by_cases hc : nu - n < t
  · rw [if_pos hc]
    refine ⟨_, rfl, by omega, ?_, .inr ⟨n, ?_⟩⟩
    · intro i hi hil
      rw [hm, List.getElem?_append_right (by rw [List.length_reverse]; omega)]
      rw [List.getElem?_replicate, if_pos (by rw [List.length_reverse]; omega)]
    · have : Nat.max n nu = n + (nu - n) := by
        rcases Nat.le_total n nu with h | h
        · rw [show Nat.max n nu = nu from Nat.max_eq_right h]; omega
        · rw [show Nat.max n nu = n from Nat.max_eq_left h]; omega
      rw [this]; omega
  · rw [if_neg hc]
    exact ⟨map.length, by simp, Nat.le_refl _, fun i h1 h2 => by omega, .inl rfl⟩

/-! ## Every argument goes to one parameter -/

theorem positional_mem {args : List Arg} {j : Nat} : j ∈ positional args ↔ ∃ a, args[j]? = some a ∧ a.name = "" := by
  unfold positional
  rw [List.mem_filter, List.mem_range]
  unfold isPositional
  constructor
  · rintro ⟨h, h2⟩
    rw [List.getElem?_eq_getElem h] at h2 ⊢
    exact ⟨_, rfl, by simpa using h2⟩
  · rintro ⟨a, h, h2⟩
    rw [h]
    exact ⟨(List.getElem?_eq_some_iff.1 h).1, by simp [h2]⟩

theorem positional_nodup (args : List Arg) : (positional args).Nodup :=
  List.Nodup.sublist (List.filter_sublist) List.nodup_range

theorem rank_mono (V : List Param) (args : List Arg) {i k : Nat} (h : i ≤ k) : rank V args i ≤ rank V args k := by
  unfold rank
  exact ((List.take_sublist_take_left h).filter _).length_le

theorem rank_succ (V : List Param) (args : List Arg) {i : Nat} {p : Param} (h : V[i]? = some p) :
    rank V args (i + 1) = rank V args i + if free args p then 1 else 0 := by
  unfold rank
  rw [List.take_add_one, h, List.filter_append, List.length_append]
  congr 1
  rw [show (some p).toList = [p] from rfl, filter_one]
  split <;> simp_all

theorem rank_lt (V : List Param) (args : List Arg) {i k : Nat} {p : Param} (h : V[i]? = some p)
    (hf : free args p = true) (hik : i < k) : rank V args i < rank V args k := by
  have := rank_succ V args h
  rw [if_pos hf] at this
  have := rank_mono V args (i := i + 1) (k := k) hik
  omega

theorem expect_lt {V : List Param} {args : List Arg} {nu i j : Nat} (h : expect V args nu i = some j) :
    j < args.length := by
  unfold expect at h
  rcases hp : V[i]? with _ | p
  · rw [hp] at h; cases h
  · rw [hp] at h
    simp only at h
    rcases hn : named args p.name with _ | j'
    · rw [hn] at h
      simp only at h
      split at h
      · cases h
      · obtain ⟨a, ha, -⟩ := positional_mem.1 (List.mem_of_getElem? h)
        exact (List.getElem?_eq_some_iff.1 ha).1
    · rw [hn] at h
      cases h
      obtain ⟨a, ha, -⟩ := named_some hn
      exact (List.getElem?_eq_some_iff.1 ha).1

theorem expect_inj {V : List Param} {args : List Arg} {nu : Nat} (hne : ∀ p ∈ V, p.name ≠ "")
    (hd : (V.map (·.name)).Nodup) {i k j : Nat} (hi : expect V args nu i = some j)
    (hk : expect V args nu k = some j) : i = k := by
  unfold expect at hi hk
  rcases hp : V[i]? with _ | p
  · rw [hp] at hi; cases hi
  rcases hq : V[k]? with _ | q
  · rw [hq] at hk; cases hk
  rw [hp] at hi
  rw [hq] at hk
  simp only at hi hk
  have hp0 : p.name ≠ "" := hne p (List.mem_of_getElem? hp)
  have hq0 : q.name ≠ "" := hne q (List.mem_of_getElem? hq)
  rcases hn : named args p.name with _ | j1
  · rw [hn] at hi
    simp only at hi
    split at hi
    · cases hi
    · rename_i h1
      obtain ⟨a, ha, ha'⟩ := positional_mem.1 (List.mem_of_getElem? hi)
      rcases hm : named args q.name with _ | j2
      · rw [hm] at hk
        simp only at hk
        split at hk
        · cases hk
        · rename_i h2
          have hlt := (List.getElem?_eq_some_iff.1 hi).1
          have hr := (List.getElem?_inj hlt (positional_nodup args)).1 (hi.trans hk.symm)
          rcases Nat.lt_trichotomy i k with c | c | c
          · have := rank_lt V args hp (by simp [free, hn]) c; omega
          · exact c
          · have := rank_lt V args hq (by simp [free, hm]) c; omega
      · rw [hm] at hk
        cases hk
        obtain ⟨b, hb, hb'⟩ := named_some hm
        rw [ha] at hb; cases hb
        exact absurd (hb'.symm.trans ha') hq0
  · rw [hn] at hi
    cases hi
    obtain ⟨a, ha, ha'⟩ := named_some hn
    rcases hm : named args q.name with _ | j2
    · rw [hm] at hk
      simp only at hk
      split at hk
      · cases hk
      · obtain ⟨b, hb, hb'⟩ := positional_mem.1 (List.mem_of_getElem? hk)
        rw [ha] at hb; cases hb
        exact absurd (ha'.symm.trans hb') hp0
    · rw [hm] at hk
      cases hk
      obtain ⟨b, hb, hb'⟩ := named_some hm
      rw [ha] at hb; cases hb
      have hlt : i < (V.map (·.name)).length := by
        rw [List.length_map]; exact (List.getElem?_eq_some_iff.1 hp).1
      apply (List.getElem?_inj hlt hd).1
      rw [List.getElem?_map, List.getElem?_map, hp, hq]
      simp [← ha', hb']

/-- The entries of a map. -/
def entries (m : List (Option Nat)) : List Nat := m.filterMap id

theorem entries_nodup : ∀ (m : List (Option Nat)),
    (∀ i k j : Nat, m[i]? = some (some j) → m[k]? = some (some j) → i = k) → (entries m).Nodup
  | [], _ => List.nodup_nil
  | none :: m, h => by
    have := entries_nodup m fun i k j hi hk => by
      have := h (i + 1) (k + 1) j (by simpa using hi) (by simpa using hk); omega
    simpa [entries] using this
  | some x :: m, h => by
    have ih := entries_nodup m fun i k j hi hk => by
      have := h (i + 1) (k + 1) j (by simpa using hi) (by simpa using hk); omega
    have hx : x ∉ entries m := by
      intro hx
      unfold entries at hx
      rw [List.mem_filterMap] at hx
      obtain ⟨o, ho, e⟩ := hx
      simp only [id] at e
      subst e
      obtain ⟨i, hi⟩ := List.mem_iff_getElem?.1 ho
      have := h 0 (i + 1) x (by simp) (by simpa using hi)
      omega
    show (entries (some x :: m)).Nodup
    have : entries (some x :: m) = x :: entries m := by simp [entries]
    rw [this]
    exact List.nodup_cons.2 ⟨hx, ih⟩

/-- A place before `using`s and defaults. -/
def cellOf : Option Nat → Slot
  | some j => .given j
  | none => .empty

theorem stealLoop_eq : ∀ (m : List (Option Nat)) (args : List Slot), (entries m).Nodup →
    (∀ j ∈ entries m, args[j]? = some (.given j)) → stealLoop m args = .ok (m.map cellOf)
  | [], _, _, _ => rfl
  | none :: m, args, hn, hj => by
    have e : entries (none :: m) = entries m := by simp [entries]
    rw [e] at hn hj
    rw [stealLoop, stealLoop_eq m args hn hj]; rfl
  | some x :: m, args, hn, hj => by
    have e : entries (some x :: m) = x :: entries m := by simp [entries]
    rw [e] at hn hj
    rw [List.nodup_cons] at hn
    rw [stealLoop, hj x (by simp)]
    simp only
    rw [stealLoop_eq m (args.set x .empty) hn.2]
    · rfl
    · intro j hjm
      rw [List.getElem?_set_ne (by intro c; subst c; exact hn.1 hjm)]
      exact hj j (by simp [hjm])

theorem convert_spec : ∀ (us : List Nat) (args out : List Slot), convert us args = .ok out →
    out.length = args.length ∧ (∀ i ∈ us, i < args.length) ∧
    ∀ i : Nat, i < args.length → out[i]? = if i ∈ us then some .using_ else args[i]?
  | [], args, out, h => by cases h; simp
  | u :: us, args, out, h => by
    rw [convert] at h
    split at h
    · rename_i hu
      obtain ⟨h1, h2, h3⟩ := convert_spec us _ _ h
      rw [List.length_set] at h1 h2 h3
      refine ⟨h1, ?_, ?_⟩
      · intro i hi
        rcases List.mem_cons.1 hi with e | e
        · subst e; exact hu
        · exact h2 i e
      · intro i hi
        rw [h3 i hi]
        by_cases hm : i ∈ us
        · rw [if_pos hm, if_pos (by simp [hm])]
        · rw [if_neg hm]
          by_cases he : i = u
          · subst he
            rw [if_pos (by simp), List.getElem?_set_self hu]
          · rw [if_neg (by simp [hm, he]), List.getElem?_set_ne (by omega)]
    · cases h

theorem convert_ok : ∀ (us : List Nat) (args : List Slot), (∀ i ∈ us, i < args.length) →
    ∃ out, convert us args = .ok out
  | [], args, _ => ⟨args, rfl⟩
  | u :: us, args, h => by
    rw [convert, if_pos (h u (by simp))]
    exact convert_ok us _ fun i hi => by rw [List.length_set]; exact h i (by simp [hi])

theorem fill_cons (p : Param) (ps : List Param) (a : Slot) (as : List Slot) :
    fill (p :: ps) (a :: as) = match fillOne p a with
      | .ok a =>
        match fill ps as with
        | .ok as => .ok (a :: as)
        | r => r
      | .fail => .fail
      | .bug => .bug := by
  rw [fill]
  rcases fillOne p a with b | _ | _
  · rcases fill ps as with bs | _ | _ <;> rfl
  · rfl
  · rfl

theorem fill_spec : ∀ (ps : List Param) (as out : List Slot), as.length = ps.length → fill ps as = .ok out →
    out.length = ps.length ∧ ∀ (i : Nat) (p : Param) (a : Slot), ps[i]? = some p → as[i]? = some a →
      ∃ b, out[i]? = some b ∧ fillOne p a = .ok b
  | [], [], out, _, h => by cases h; simp
  | [], _ :: _, _, hl, _ => by simp at hl
  | _ :: _, [], _, hl, _ => by simp at hl
  | p :: ps, a :: as, out, hl, h => by
    rw [fill_cons] at h
    rcases h1 : fillOne p a with b | _ | _
    · rw [h1] at h
      simp only at h
      rcases h2 : fill ps as with bs | _ | _
      · rw [h2] at h
        cases h
        obtain ⟨e1, e2⟩ := fill_spec ps as bs (by simpa using hl) h2
        refine ⟨by simp [e1], ?_⟩
        intro i q c hq hc
        rcases i with _ | i
        · simp only [List.getElem?_cons_zero, Option.some.injEq] at hq hc
          subst hq; subst hc
          exact ⟨b, by simp, h1⟩
        · simp only [List.getElem?_cons_succ] at hq hc ⊢
          exact e2 i q c hq hc
      · rw [h2] at h; cases h
      · rw [h2] at h; cases h
    · rw [h1] at h; cases h
    · rw [h1] at h; cases h

theorem fill_ok : ∀ (ps : List Param) (as : List Slot),
    (∀ (i : Nat) (p : Param) (a : Slot), ps[i]? = some p → as[i]? = some a → ∃ b, fillOne p a = .ok b) →
    ∃ out, fill ps as = .ok out
  | [], _, _ => ⟨[], by rw [fill]; simp⟩
  | _ :: _, [], _ => ⟨[], by rw [fill]; simp⟩
  | p :: ps, a :: as, h => by
    obtain ⟨b, hb⟩ := h 0 p a (by simp) (by simp)
    obtain ⟨out, ho⟩ := fill_ok ps as fun i q c hq hc => h (i + 1) q c (by simpa using hq) (by simpa using hc)
    exact ⟨b :: out, by rw [fill_cons, hb, ho]⟩

theorem matchLoop_spec (t : Types) (s : Sig) (args : List Arg) (r : Reorder) : ∀ (is us : List Nat),
    is.Nodup → matchLoop t s args r is = .ok us → (∀ u ∈ us, u ∈ is) ∧
    ∀ i ∈ is, ∃ u, matchOne t s args r i = .ok u ∧ (u = true ↔ i ∈ us)
  | [], us, _, h => by cases h; simp
  | k :: ks, us, hn, h => by
    rw [List.nodup_cons] at hn
    rw [matchLoop] at h
    rcases h1 : matchOne t s args r k with u | _ | _
    · rw [h1] at h
      simp only at h
      rcases h2 : matchLoop t s args r ks with vs | _ | _
      · rw [h2] at h
        simp only [R.ok.injEq] at h
        obtain ⟨e1, e2⟩ := matchLoop_spec t s args r ks vs hn.2 h2
        have hk : k ∉ vs := fun c => hn.1 (e1 k c)
        constructor
        · intro v hv
          rw [← h] at hv
          split at hv
          · rcases List.mem_cons.1 hv with c | c
            · simp [c]
            · simp [e1 v c]
          · simp [e1 v hv]
        · intro i hi
          rcases List.mem_cons.1 hi with c | c
          · subst c
            refine ⟨u, h1, ?_⟩
            rw [← h]
            cases u <;> simp [hk]
          · obtain ⟨v, hv, hv'⟩ := e2 i c
            refine ⟨v, hv, ?_⟩
            rw [hv', ← h]
            have : i ≠ k := fun e => hn.1 (e ▸ c)
            cases u <;> simp [this]
      · rw [h2] at h; cases h
      · rw [h2] at h; cases h
    · rw [h1] at h; cases h
    · rw [h1] at h; cases h

theorem matchLoop_not_bug (t : Types) (s : Sig) (args : List Arg) (r : Reorder) : ∀ (is : List Nat),
    (∀ i ∈ is, matchOne t s args r i ≠ .bug) → matchLoop t s args r is ≠ .bug
  | [], _ => by simp [matchLoop]
  | k :: ks, h => by
    have ih := matchLoop_not_bug t s args r ks fun i hi => h i (by simp [hi])
    have hk := h k (by simp)
    rw [matchLoop]
    rcases h1 : matchOne t s args r k with u | _ | _
    · simp only
      rcases h2 : matchLoop t s args r ks with vs | _ | _
      · simp
      · simp
      · exact absurd h2 ih
    · simp
    · exact absurd h1 hk

end Verif.CallArgs
