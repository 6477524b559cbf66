import Verif.Resolve
/-!
# Imports stand for the files the rules say - if the cache's keys do not clash: C79
-/
namespace Verif.Resolve
open Verif

/-! ## Parents -/

/-- The cuts at the first `n` positions, the longest first. -/
def up (d : Str) : Nat → List Str
  | 0 => []
  | n + 1 => (if d[n]? = some (ch '/') then [d.take (n + 1)] else []) ++ up d n

theorem up_cons (c : Byte) (t : Str) (n : Nat) :
    up (c :: t) (n + 1) = (up t n).map (c :: ·) ++ if c = ch '/' then [[c]] else [] := by
  induction n with
  | zero => simp [up]
  | succ n ih =>
    rw [up, ih, up, List.getElem?_cons_succ, List.take_succ_cons]
    by_cases h : t[n]? = some (ch '/')
    · rw [if_pos h, if_pos h]; simp
    · rw [if_neg h, if_neg h]; simp

theorem parents_up (d : Str) : parents d = up d (d.length - 1) := by
  induction d with
  | nil => rfl
  | cons c t ih =>
    cases t with
    | nil => simp [parents, up]
    | cons c' t' =>
      rw [parents, ih]
      show _ = up (c :: c' :: t') ((c' :: t').length - 1 + 1)
      rw [up_cons]
      simp

theorem up_take (d : Str) (n k : Nat) (h : n ≤ k) : up (d.take k) n = up d n := by
  induction n with
  | zero => rfl
  | succ n ih =>
    rw [up, up, ih (by omega), List.getElem?_take, if_pos (show n < k by omega), List.take_take, Nat.min_eq_left h]

theorem lastSlash_up (d : Str) (n : Nat) (h : n ≤ d.length) :
    (Path.lastSlash d n = some none ∧ up d n = []) ∨
    ∃ i, i < n ∧ Path.lastSlash d n = some (some i) ∧ up d n = d.take (i + 1) :: up d i := by
  induction n with
  | zero => exact .inl ⟨rfl, rfl⟩
  | succ n ih =>
    have hn : n < d.length := by omega
    rw [Path.lastSlash, List.getElem?_eq_getElem hn, up, List.getElem?_eq_getElem hn]
    show (if d[n] = Path.slash then _ else _) = _ ∧ _ ∨ _
    by_cases hc : d[n] = ch '/'
    · right
      refine ⟨n, by omega, ?_, ?_⟩
      · exact if_pos hc
      · rw [if_pos (by rw [hc])]; rfl
    · have h2 : ¬ some d[n] = some (ch '/') := fun e => hc (Option.some.inj e)
      rw [if_neg h2]
      rcases ih (by omega) with ⟨a, b⟩ | ⟨i, a, b, c⟩
      · left
        refine ⟨(if_neg hc).trans a, b⟩
      · right
        exact ⟨i, by omega, (if_neg hc).trans b, c⟩

/-- `path::dirname` of a directory is its parent. -/
theorem dirname_parents (d : Str) : (Path.dirname d = some [] ∧ parents d = []) ∨
    ∃ p, Path.dirname d = some p ∧ p ≠ [] ∧ p.length < d.length ∧ parents d = p :: parents p := by
  unfold Path.dirname
  rw [parents_up]
  rcases lastSlash_up d (d.length - 1) (by omega) with ⟨a, b⟩ | ⟨i, hi, a, b⟩
  · left
    rw [a]; exact ⟨rfl, b⟩
  · right
    rw [a]
    refine ⟨d.take (i + 1), rfl, ?_, by rw [List.length_take]; omega, ?_⟩
    · intro h
      have := congrArg List.length h
      rw [List.length_take, List.length_nil] at this
      omega
    · rw [b, parents_up, List.length_take, Nat.min_eq_left (by omega), Nat.add_sub_cancel, up_take _ _ _ (by omega)]

theorem search_step (exist : Str → Bool) (fudir d name : Str) :
    (parents d = [] → search exist fudir d name = if exist (d ++ name) then some (d ++ name)
      else if fudir.getLast? = some (ch '/') ∧ exist (fudir ++ str "lib/" ++ name) = true then some (fudir ++ str "lib/" ++ name) else none) ∧
    (∀ p, parents d = p :: parents p → search exist fudir d name = if exist (d ++ name) then some (d ++ name) else search exist fudir p name) := by
  constructor
  · intro h
    unfold search places
    rw [h]
    by_cases he : exist (d ++ name) = true
    · simp [he]
    · by_cases hf : fudir.getLast? = some (ch '/')
      · by_cases hl : exist (fudir ++ str "lib/" ++ name) = true
        · rw [if_pos hf, if_neg he, if_pos ⟨hf, hl⟩]; simp only [List.map_cons, List.map_nil, List.cons_append, List.nil_append, List.find?_cons, he, hl]
        · rw [if_pos hf, if_neg he, if_neg (fun h => hl h.2)]; simp only [List.map_cons, List.map_nil, List.cons_append, List.nil_append, List.find?_cons, he, hl, List.find?_nil]
      · simp [he, hf]
  · intro p h
    unfold search places
    rw [h]
    by_cases he : exist (d ++ name) = true
    · simp [he]
    · simp [he]

/-! ## The cache -/

/-- The value the cache has for a result. -/
def code : Option Str → Str
  | some p => p
  | none => [vt]

/-- Lookups whose keys are different. -/
structure NoClash (D : Str → Str → Prop) : Prop where
  up : ∀ d n p, D d n → p ∈ parents d → D p n
  inj : ∀ d n d' n', D d n → D d' n' → d ++ n = d' ++ n' → d = d' ∧ n = n'
  long : ∀ d n, D d n → 2 ≤ n.length

/-- All entries of the cache are right. -/
def CacheOk (exist : Str → Bool) (fudir : Str) (D : Str → Str → Prop) (c : Map) : Prop :=
  ∀ k v, c k = some v → ∃ d n, D d n ∧ k = d ++ n ∧ v = code (search exist fudir d n)

theorem search_ne (exist : Str → Bool) (fudir d n p : Str) (hn : 2 ≤ n.length) (h : search exist fudir d n = some p) : p ≠ [] ∧ p ≠ [vt] := by
  have := List.mem_of_find?_eq_some h
  unfold places at this
  have hlen : 2 ≤ p.length := by
    rcases List.mem_append.1 this with h | h
    · obtain ⟨x, _, rfl⟩ := List.mem_map.1 h
      rw [List.length_append]; omega
    · split at h
      · have := List.mem_singleton.1 h
        subst this
        rw [List.length_append]; omega
      · cases h
  constructor <;> (intro e; rw [e] at hlen; simp at hlen)

theorem set_ok {exist : Str → Bool} {fudir : Str} {D : Str → Str → Prop} {c : Map} (h : CacheOk exist fudir D c) {d n : Str} (hd : D d n)
    (v : Str) (hv : v = code (search exist fudir d n)) : CacheOk exist fudir D (c.set (d ++ n) v) := by
  intro k w hk
  unfold Map.set at hk
  split at hk
  · cases hk
    exact ⟨d, n, hd, by assumption, hv⟩
  · exact h k w hk

/-- One lookup: what the rules say; the cache stays right. -/
theorem lookup_spec (exist : Str → Bool) (fudir : Str) (D : Str → Str → Prop) (hD : NoClash D) (fuel : Nat) :
    ∀ (c : Map) (d n : Str), d.length < fuel → D d n → CacheOk exist fudir D c →
    ∃ c', lookup exist fudir fuel c d n = some (c', (search exist fudir d n).getD []) ∧ CacheOk exist fudir D c' := by
  induction fuel with
  | zero => intro c d n h; omega
  | succ fuel ih =>
    intro c d n hf hd hc
    rw [lookup]
    by_cases hcache : c.get (d ++ n) ≠ []
    · rw [if_pos hcache]
      have hx : ∃ v, c (d ++ n) = some v ∧ c.get (d ++ n) = v := by
        unfold Map.get at hcache ⊢
        cases h : c (d ++ n) with
        | none => rw [h] at hcache; exact absurd rfl hcache
        | some v => exact ⟨v, rfl, rfl⟩
      obtain ⟨v, hv, hg⟩ := hx
      obtain ⟨d', n', hd', hk, hv'⟩ := hc _ v hv
      obtain ⟨rfl, rfl⟩ := hD.inj d n d' n' hd hd' hk
      refine ⟨c, ?_, hc⟩
      rw [hg, hv']
      cases hs : search exist fudir d n with
      | none => rfl
      | some p =>
        have := search_ne exist fudir d n p (hD.long d n hd) hs
        show some (c, if p = [vt] then [] else p) = _
        rw [if_neg this.2]; rfl
    · rw [if_neg hcache]
      have key : ∃ c' r, tryResolve exist fudir (fun c d => lookup exist fudir fuel c d n) c d n = some (c', r) ∧
          r = (search exist fudir d n).getD [] ∧ CacheOk exist fudir D c' := by
        unfold tryResolve
        rcases dirname_parents d with ⟨hdn, hpar⟩ | ⟨p, hdn, hne, hlt, hpar⟩
        · rw [(search_step exist fudir d n).1 hpar, hdn]
          by_cases he : exist (d ++ n) = true
          · rw [if_pos he, if_pos he]; exact ⟨_, _, rfl, rfl, hc⟩
          · rw [if_neg he, if_neg he]
            dsimp only
            rw [if_pos (Or.inl rfl)]
            split
            · exact ⟨_, _, rfl, rfl, hc⟩
            · exact ⟨_, _, rfl, rfl, hc⟩
        · rw [(search_step exist fudir d n).2 p hpar, hdn]
          by_cases he : exist (d ++ n) = true
          · rw [if_pos he, if_pos he]; exact ⟨_, _, rfl, rfl, hc⟩
          · rw [if_neg he, if_neg he]
            dsimp only
            rw [if_neg (by rintro (h | h); exact hne h; omega)]
            obtain ⟨c', h1, h2⟩ := ih c p n (by omega) (hD.up d n p hd (by rw [hpar]; exact List.mem_cons_self)) hc
            exact ⟨c', _, h1, rfl, h2⟩
      obtain ⟨c', r, h1, h2, h3⟩ := key
      refine ⟨c'.set (d ++ n) (if r = [] then [vt] else r), ?_, ?_⟩
      · rw [h1]
        show some (_, r) = _
        rw [h2]
      · refine set_ok h3 hd _ ?_
        rw [h2]
        cases hs : search exist fudir d n with
        | none => rfl
        | some p =>
          have := search_ne exist fudir d n p (hD.long d n hd) hs
          show (if p = [] then _ else p) = p
          rw [if_neg this.1]

theorem orElse_some (c : Map) (r : Str) (next : Map → Option (Map × Str)) : orElse (some (c, r)) next = if r ≠ [] then some (c, r) else next c := rfl

/-- Trying names one after the other.  `S` finds what `f` says, and keeps `P`. -/
theorem run_spec (S : Map → Str → Option (Map × Str)) (P : Map → Prop) (f : Str → Option Str)
    (L : List Str) (hS : ∀ c n, P c → n ∈ L → ∃ c', S c n = some (c', (f n).getD []) ∧ P c')
    (hg : ∀ n ∈ L, f n ≠ some [])
    (c : Map) (hc : P c) (name nested alt : Str) (hL : L = name :: ([nested, alt].filter (· ≠ []))) :
    ∃ c', run S c name nested alt = some (c', (L.findSome? f).getD []) ∧ P c' := by
  have opt : ∀ c n, P c → (n ≠ [] → n ∈ L) →
      ∃ c', (if n ≠ [] then S c n else some (c, [])) = some (c', (([n].filter (· ≠ [])).findSome? f).getD []) ∧ P c' := by
    intro c n hc hn
    by_cases hz : n = []
    · rw [if_neg (by simp [hz]), hz]; exact ⟨c, rfl, hc⟩
    · rw [if_pos hz]
      obtain ⟨c', h1, h2⟩ := hS c n hc (hn hz)
      refine ⟨c', ?_, h2⟩
      rw [h1]
      simp only [List.filter_cons, List.filter_nil, ne_eq, hz, not_false_eq_true, decide_true, if_true, List.findSome?_cons, List.findSome?_nil]
      cases f n <;> rfl
  have hsplit : L = [name] ++ ([nested].filter (· ≠ []) ++ [alt].filter (· ≠ [])) := by
    rw [hL, ← List.filter_append]; rfl
  have hmem : ∀ n, n = nested ∨ n = alt → n ≠ [] → n ∈ L := by
    intro n h hz
    rw [hL]
    refine List.mem_cons_of_mem _ (List.mem_filter.2 ⟨?_, by simpa using hz⟩)
    rcases h with rfl | rfl <;> simp
  unfold run
  obtain ⟨c1, h1, p1⟩ := hS c name hc (by rw [hL]; exact List.mem_cons_self)
  rw [h1, orElse_some]
  rw [hsplit, List.findSome?_append, List.findSome?_append]
  cases hf : f name with
  | some a =>
    have ha : a ≠ [] := fun e => hg name (by rw [hL]; exact List.mem_cons_self) (by rw [hf, e])
    rw [if_pos (by exact ha)]
    exact ⟨c1, by simp [hf], p1⟩
  | none =>
    rw [if_neg (by simp)]
    obtain ⟨c2, h2, p2⟩ := opt c1 nested p1 (hmem nested (.inl rfl))
    rw [h2, orElse_some]
    cases hf2 : ([nested].filter (· ≠ [])).findSome? f with
    | some a =>
      have ha : a ≠ [] := by
        intro e
        obtain ⟨x, hx, hxa⟩ := List.exists_of_findSome?_eq_some hf2
        refine hg x ?_ (by rw [hxa, e])
        obtain ⟨h1, h2⟩ := List.mem_filter.1 hx
        exact hmem x (.inl (List.mem_singleton.1 h1)) (by simpa using h2)
      rw [if_pos (by exact ha)]
      exact ⟨c2, by simp [hf], p2⟩
    | none =>
      rw [if_neg (by simp)]
      obtain ⟨c3, h3, p3⟩ := opt c2 alt p2 (hmem alt (.inr rfl))
      rw [h3]
      exact ⟨c3, by simp [hf], p3⟩

/-! ## Names -/

theorem afterSlash_eq (s : Str) : afterSlash s = lastPart s := by
  have key : ∀ (s : Str), (ch '/' ∉ s → lastPart s = s) ∧ ∀ a, ch '/' ∉ s → lastPart (a ++ ch '/' :: s) = s := by
    intro s
    constructor
    · intro h
      cases s with
      | nil => rfl
      | cons c t =>
        rw [lastPart, if_neg (fun e => h (by rw [e]; exact List.mem_cons_self)), if_neg (fun e => h (List.mem_cons_of_mem _ e))]
    · intro a h
      have hs : lastPart s = s := by
        cases s with
        | nil => rfl
        | cons c t =>
          rw [lastPart, if_neg (fun e => h (by rw [e]; exact List.mem_cons_self)), if_neg (fun e => h (List.mem_cons_of_mem _ e))]
      induction a with
      | nil => rw [List.nil_append, lastPart, if_pos rfl, hs]
      | cons c a ih =>
        rw [List.cons_append, lastPart, ih]
        by_cases hc : c = ch '/'
        · rw [if_pos hc]
        · rw [if_neg hc, if_pos (by simp)]
  unfold afterSlash
  cases h : s.reverse.findIdx? (fun x => decide (x = ch '/')) with
  | none =>
    have := List.findIdx?_eq_none_iff.1 h
    exact ((key s).1 (fun hm => by simpa using this (ch '/') (List.mem_reverse.2 hm))).symm
  | some k =>
    obtain ⟨hk, hp, hbefore⟩ := List.findIdx?_eq_some_iff_getElem.1 h
    rw [List.length_reverse] at hk
    dsimp only
    have hp : s.reverse[k]'(by simpa using hk) = ch '/' := by simpa using hp
    rw [List.getElem_reverse] at hp
    have hdec : s = s.take (s.length - 1 - k) ++ ch '/' :: s.drop (s.length - k) := by
      have h1 : s.length - 1 - k < s.length := by omega
      have := List.drop_eq_getElem_cons h1
      rw [hp, show s.length - 1 - k + 1 = s.length - k by omega] at this
      rw [← this, List.take_append_drop]
    have hfree : ch '/' ∉ s.drop (s.length - k) := by
      intro hm
      obtain ⟨j, hj, e⟩ := List.getElem_of_mem hm
      rw [List.length_drop] at hj
      rw [List.getElem_drop] at e
      have hb := hbefore (k - 1 - j) (by omega)
      rw [List.getElem_reverse] at hb
      have : s.length - 1 - (k - 1 - j) = s.length - k + j := by omega
      simp only [this] at hb
      rw [e] at hb
      simp at hb
    conv => rhs; rw [hdec]
    exact ((key _).2 _ hfree).symm

theorem findFrom_none {s : Str} {c : Byte} (h : c ∉ s) (n : Nat) : findFrom s c n = none := by
  unfold findFrom
  rw [List.findIdx?_eq_none_iff.2]
  · rfl
  · intro x hx
    have := List.mem_of_mem_drop hx
    simp only [decide_eq_false_iff_not]
    intro e
    exact h (e ▸ this)

theorem findFrom_cut {a b : Str} {c : Byte} (h : c ∉ a) : findFrom (a ++ c :: b) c 0 = some a.length := by
  unfold findFrom
  rw [List.drop_zero, List.findIdx?_append, List.findIdx?_eq_none_iff.2]
  · simp [List.findIdx?_cons]
  · intro x hx
    simp only [decide_eq_false_iff_not]
    intro e
    exact h (e ▸ hx)

theorem findFrom_after {a b : Str} {c : Byte} (h : c ∉ b) : findFrom (a ++ c :: b) c (a.length + 1) = none := by
  unfold findFrom
  rw [List.findIdx?_eq_none_iff.2]
  · rfl
  · intro x hx
    have : List.drop (a.length + 1) (a ++ c :: b) = b := by
      rw [← List.drop_drop, List.drop_left]; rfl
    rw [this] at hx
    simp only [decide_eq_false_iff_not]
    intro e
    exact h (e ▸ hx)

/-- The names that are tried are the ones the rules ask for. -/
theorem names_asks {raw : Str} {L : List Str} (h : Asks raw L) :
    L = (names raw).1 :: ([(names raw).2.1, (names raw).2.2].filter (· ≠ [])) := by
  cases h with
  | file _ h => unfold names; rw [if_pos h]; rfl
  | module base hne h ht =>
    unfold names
    rw [if_neg h, findFrom_none ht 0]
    dsimp only
    rw [afterSlash_eq]
    simp [fileNames, str]
  | item base i hne hi h ht ht' =>
    unfold names
    have hl : 0 < base.length := by cases base with | nil => exact absurd rfl hne | cons => simp
    have hl' : 0 < i.length := by cases i with | nil => exact absurd rfl hi | cons => simp
    rw [if_neg h, findFrom_cut ht]
    dsimp only
    rw [if_pos ⟨hl, by simp; omega, findFrom_after ht'⟩]
    dsimp only
    have h1 : (base ++ ch '\t' :: i).take base.length = base := by simp
    have h2 : (base ++ ch '\t' :: i).drop (base.length + 1) = i := by
      rw [← List.drop_drop, List.drop_left]; rfl
    rw [h1, h2, afterSlash_eq]
    simp [fileNames, str]

theorem asks_long {raw : Str} {L : List Str} (h : Asks raw L) : ∀ n ∈ L, 2 ≤ n.length := by
  intro n hn
  have hs : str ".fu" <:+ n := by
    cases h with
    | file _ h => rw [List.mem_singleton.1 hn]; exact h
    | module base hne h ht =>
      simp only [fileNames, List.append_nil, List.mem_cons, List.not_mem_nil, or_false] at hn
      rcases hn with rfl | rfl <;> exact List.suffix_append _ _
    | item base i hne hi h ht ht' =>
      simp only [fileNames, List.cons_append, List.nil_append, List.mem_cons, List.not_mem_nil, or_false] at hn
      rcases hn with rfl | rfl | rfl <;> exact List.suffix_append _ _
  have := hs.length_le
  have h3 : (str ".fu").length = 3 := by decide
  omega

/-! ## The theorems -/

/-- The answer the rules give: the first file found, else one of the files given by the test suite, else the path itself. -/
def answer (exist prep : Str → Bool) (fudir dir raw : Str) (L : List Str) : Str :=
  ((firstOf exist fudir dir L).or ((L.map (dir ++ ·)).find? prep)).getD (dir ++ vt :: raw)

theorem resolve_one (exist prep : Str → Bool) (fudir : Str) (D : Str → Str → Prop) (hD : NoClash D) (c : Map) (hc : CacheOk exist fudir D c)
    (dir raw : Str) (L : List Str) (ha : Asks raw L) (hd : dir ≠ []) (hv : vt ∉ dir) (hr : vt ∉ raw) (hDL : ∀ n ∈ L, D dir n) :
    ∃ c', resolveFile exist prep fudir c (dir ++ vt :: raw) = some (c', answer exist prep fudir dir raw L) ∧ CacheOk exist fudir D c' := by
  have hl : 0 < dir.length := by cases dir with | nil => exact absurd rfl hd | cons => simp
  have hl' : 0 < raw.length := by
    have hne : raw ≠ [] := by
      cases ha with
      | file _ h => intro e; rw [e] at h; have := h.length_le; simp [str] at this
      | module base hne h ht => exact hne
      | item base i hne hi h ht ht' => simp
    cases raw with | nil => exact absurd rfl hne | cons => simp
  unfold resolveFile
  rw [findFrom_cut hv]
  dsimp only
  rw [if_pos ⟨hl, by simp; omega, findFrom_after hr⟩]
  have h1 : (dir ++ vt :: raw).take dir.length = dir := by simp
  have h2 : (dir ++ vt :: raw).drop (dir.length + 1) = raw := by rw [← List.drop_drop, List.drop_left]; rfl
  rw [h1, h2]
  have hL := names_asks ha
  have hlong := asks_long ha
  obtain ⟨c1, r1, p1⟩ := run_spec (fun c n => lookup exist fudir (dir.length + 1) c dir n) (CacheOk exist fudir D) (search exist fudir dir) L
    (fun c n hc hn => lookup_spec exist fudir D hD (dir.length + 1) c dir n (by omega) (hDL n hn) hc)
    (fun n hn e => (search_ne exist fudir dir n [] (hlong n hn) e).1 rfl)
    c hc (names raw).1 (names raw).2.1 (names raw).2.2 hL
  rw [r1, orElse_some]
  unfold answer firstOf
  cases hf : L.findSome? (search exist fudir dir) with
  | some p =>
    have hp : p ≠ [] := by
      obtain ⟨x, hx, hxa⟩ := List.exists_of_findSome?_eq_some hf
      exact (search_ne exist fudir dir x p (hlong x hx) hxa).1
    rw [if_pos (by exact hp)]
    exact ⟨c1, rfl, p1⟩
  | none =>
    rw [if_neg (by simp)]
    obtain ⟨c2, r2, p2⟩ := run_spec (prepopulated prep dir) (CacheOk exist fudir D) (fun n => if prep (dir ++ n) then some (dir ++ n) else none) L
      (fun c n hc hn => ⟨c, by unfold prepopulated; split <;> rfl, hc⟩)
      (fun n hn e => by
        split at e
        · have := congrArg List.length (Option.some.inj e)
          rw [List.length_append, List.length_nil] at this
          omega
        · cases e)
      c1 p1 (names raw).1 (names raw).2.1 (names raw).2.2 hL
    rw [r2, orElse_some]
    have heq : L.findSome? (fun n => if prep (dir ++ n) then some (dir ++ n) else none) = (L.map (dir ++ ·)).find? prep := by
      clear hL hlong ha hDL hf r1 r2
      induction L with
      | nil => rfl
      | cons x L ih =>
        rw [List.findSome?_cons, List.map_cons, List.find?_cons]
        by_cases hp : prep (dir ++ x) = true
        · simp [hp]
        · simp only [hp, if_false, ih, Bool.false_eq_true]
    rw [heq]
    cases hq : (L.map (dir ++ ·)).find? prep with
    | some p =>
      have hp : p ≠ [] := by
        have := List.mem_of_find?_eq_some hq
        obtain ⟨x, hx, rfl⟩ := List.mem_map.1 this
        intro e
        have := congrArg List.length e
        rw [List.length_append, List.length_nil] at this
        omega
      rw [if_pos (by exact hp)]
      exact ⟨c2, rfl, p2⟩
    | none =>
      rw [if_neg (by simp)]
      exact ⟨c2, rfl, p2⟩

/-- A request: `raw` is written in a file of the directory `dir`. -/
structure Req where
  dir : Str
  raw : Str
  files : List Str

def Req.Ok (r : Req) : Prop := Asks r.raw r.files ∧ r.dir ≠ [] ∧ vt ∉ r.dir ∧ vt ∉ r.raw

/-- Answering requests one after the other, with the cache. -/
def serve (exist prep : Str → Bool) (fudir : Str) : Map → List Req → Option (List Str)
  | _, [] => some []
  | c, r :: t =>
    match resolveFile exist prep fudir c (r.dir ++ vt :: r.raw) with
    | none => none
    | some (c, p) => (serve exist prep fudir c t).map (p :: ·)

/-- The places that several requests look at in the importing directories and their parents. -/
def Looks (rs : List Req) (d n : Str) : Prop := ∃ r ∈ rs, n ∈ r.files ∧ (d = r.dir ∨ d ∈ parents r.dir)

theorem parents_trans {d p q : Str} (h1 : p ∈ parents d) (h2 : q ∈ parents p) : q ∈ parents d := by
  induction hn : d.length using Nat.strongRecOn generalizing d with
  | _ n ih =>
    rcases dirname_parents d with ⟨_, h⟩ | ⟨x, _, _, hlt, h⟩
    · rw [h] at h1; cases h1
    · rw [h] at h1 ⊢
      rcases List.mem_cons.1 h1 with rfl | h1
      · exact List.mem_cons_of_mem _ h2
      · exact List.mem_cons_of_mem _ (ih x.length (by omega) h1 rfl)

/-- C79.  All imports of a build stand for the files the rules say, whatever was asked before - provided no two lookups of
different names in different directories amount to the same path. -/
theorem resolve_correct_partial (exist prep : Str → Bool) (fudir : Str) (rs : List Req) (hok : ∀ r ∈ rs, r.Ok)
    (hinj : ∀ d n d' n', Looks rs d n → Looks rs d' n' → d ++ n = d' ++ n' → d = d' ∧ n = n') :
    serve exist prep fudir (fun _ => none) rs = some (rs.map fun r => answer exist prep fudir r.dir r.raw r.files) := by
  have hD : NoClash (Looks rs) := by
    refine ⟨?_, hinj, ?_⟩
    · rintro d n p ⟨r, hr, hn, hd⟩ hp
      refine ⟨r, hr, hn, .inr ?_⟩
      rcases hd with rfl | hd
      · exact hp
      · exact parents_trans hd hp
    · rintro d n ⟨r, hr, hn, _⟩
      exact asks_long (hok r hr).1 n hn
  have key : ∀ (l : List Req) (c : Map), (∀ r ∈ l, r ∈ rs) → CacheOk exist fudir (Looks rs) c →
      serve exist prep fudir c l = some (l.map fun r => answer exist prep fudir r.dir r.raw r.files) := by
    intro l
    induction l with
    | nil => intro c _ _; rfl
    | cons r l ih =>
      intro c hl hc
      obtain ⟨h1, h2, h3, h4⟩ := hok r (hl r List.mem_cons_self)
      obtain ⟨c', e, hc'⟩ := resolve_one exist prep fudir (Looks rs) hD c hc r.dir r.raw r.files h1 h2 h3 h4
        (fun n hn => ⟨r, hl r List.mem_cons_self, hn, .inl rfl⟩)
      rw [serve, e]
      dsimp only
      rw [ih c' (fun x hx => hl x (List.mem_cons_of_mem _ hx)) hc']
      rfl
  exact key rs _ (fun _ h => h) (fun k v h => by cases h)

end Verif.Resolve
