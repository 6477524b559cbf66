import Verif.LifetimeOps
/-!
# C54: the intersection of lifetimes, and where it goes wrong

`Paths_inter` keeps the path of the previous overlapping pair in `inter` (it is only cleared by a pair that does not
overlap), so the intersection of the next pair is appended to it instead of being added on its own: the result can lose
places.  For ranges that overlap without one containing the other, the range it computes is not their intersection.
-/
namespace Verif.Lifetime
open Verif

/-- The intersection of two paths, computed as in the loop of `Paths_inter`, but from an empty `inter`. -/
def fresh : SPath → SPath → Option SPath
  | a :: as, b :: bs =>
    if overlap a b ≤ 0 then none
    else (fresh as bs).map (⟨min a.flatCount b.flatCount, max a.flatOffset b.flatOffset⟩ :: ·)
  | [], b => some b
  | a, [] => some a

theorem interLoop_fresh (a b s : SPath) :
    (interLoop a b s).map (fun i => i ++ a.drop b.length ++ b.drop a.length) = (fresh a b).map (s ++ ·) := by
  induction a generalizing b s with
  | nil =>
    cases b with
    | nil => simp [interLoop, fresh]
    | cons y b => simp [interLoop, fresh]
  | cons x a ih =>
    cases b with
    | nil => simp [interLoop, fresh]
    | cons y b =>
      unfold interLoop fresh
      by_cases c : overlap x y ≤ 0
      · rw [if_pos c, if_pos c]; rfl
      · rw [if_neg c, if_neg c]
        simp only [List.length_cons, List.drop_succ_cons]
        rw [ih, Option.map_map]
        congr 1
        funext z
        simp

theorem interPair_fresh (a b : SPath) (res : Paths) (s : SPath) :
    interPair a (res, s) b = match fresh a b with
      | none => (res, [])
      | some f => (addPath res (s ++ f), s ++ f) := by
  have h := interLoop_fresh a b s
  unfold interPair
  simp only
  cases hi : interLoop a b s with
  | none =>
    rw [hi] at h
    cases hf : fresh a b with
    | none => rfl
    | some f => rw [hf] at h; simp at h
  | some i =>
    rw [hi] at h
    cases hf : fresh a b with
    | none => rw [hf] at h; simp at h
    | some f =>
      rw [hf] at h
      simp only [Option.map_some, Option.some.injEq] at h
      simp only
      rw [h]

theorem fresh_none (a b : SPath) : fresh a b = none ↔ pathsOverlap a b = false := by
  induction a generalizing b with
  | nil => cases b <;> simp [fresh, pathsOverlap]
  | cons x a ih =>
    cases b with
    | nil => simp [fresh, pathsOverlap]
    | cons y b =>
      unfold fresh pathsOverlap
      by_cases c : overlap x y ≤ 0
      · simp [c]
      · rw [if_neg c, if_neg c, Option.map_eq_none_iff, ih]

/-- One range contains the other, or they do not meet; so it is with the fields of a type. -/
def Nested (x y : SubRegion) : Prop :=
  x.flatOffset + x.flatCount ≤ y.flatOffset ∨ y.flatOffset + y.flatCount ≤ x.flatOffset ∨
  (x.flatOffset ≤ y.flatOffset ∧ y.flatOffset + y.flatCount ≤ x.flatOffset + x.flatCount) ∨
  (y.flatOffset ≤ x.flatOffset ∧ x.flatOffset + x.flatCount ≤ y.flatOffset + y.flatCount)

/-- The steps of two paths are nested. -/
def NestedPath : SPath → SPath → Prop
  | x :: a, y :: b => Nested x y ∧ NestedPath a b
  | _, _ => True

theorem fresh_covers {a b f : SPath} (hn : NestedPath a b) (ha : ∀ x ∈ a, 0 < x.flatCount) (hb : ∀ x ∈ b, 0 < x.flatCount)
    (h : fresh a b = some f) (q : List Nat) : covers f q ↔ covers a q ∧ covers b q := by
  induction a generalizing b f q with
  | nil =>
    cases b with
    | nil => simp [fresh] at h; subst h; simp [covers]
    | cons y b => simp [fresh] at h; subst h; simp [covers]
  | cons x a ih =>
    cases b with
    | nil => simp [fresh] at h; subst h; simp [covers]
    | cons y b =>
      unfold fresh at h
      by_cases c : overlap x y ≤ 0
      · rw [if_pos c] at h; cases h
      · rw [if_neg c, Option.map_eq_some_iff] at h
        obtain ⟨f', hf', rfl⟩ := h
        cases q with
        | nil => simp [covers]
        | cons z q =>
          have := ih hn.2 (fun x hx => ha x (by simp [hx])) (fun x hx => hb x (by simp [hx])) hf' q
          have hx := ha x (by simp)
          have hy := hb y (by simp)
          have c' := (overlap_pos hx hy).mp c
          unfold covers
          rw [this]
          simp only
          have key : (max x.flatOffset y.flatOffset ≤ z ∧ z < max x.flatOffset y.flatOffset + min x.flatCount y.flatCount) ↔
              (x.flatOffset ≤ z ∧ z < x.flatOffset + x.flatCount) ∧ (y.flatOffset ≤ z ∧ z < y.flatOffset + y.flatCount) := by
            rcases hn.1 with h | h | h | h <;> omega
          tauto

theorem fresh_valid {a b f : SPath} (ha : ValidPath a) (hb : ValidPath b) (h : fresh a b = some f) : ValidPath f := by
  induction a generalizing b f with
  | nil => exact ha.elim
  | cons x a ih =>
    cases b with
    | nil => exact hb.elim
    | cons y b =>
      unfold fresh at h
      by_cases c : overlap x y ≤ 0
      · rw [if_pos c] at h; cases h
      · rw [if_neg c, Option.map_eq_some_iff] at h
        obtain ⟨f', hf', rfl⟩ := h
        cases a with
        | nil =>
          cases b with
          | nil =>
            simp [fresh] at hf'
            subst hf'
            obtain ⟨a1, a2, a3⟩ := ha
            obtain ⟨b1, b2, b3⟩ := hb
            exact ⟨by simp only; omega, by simp only; omega, by simp only; omega⟩
          | cons y' b =>
            simp [fresh] at hf'
            subst hf'
            obtain ⟨a1, a2, a3⟩ := ha
            obtain ⟨b1, b2, b3⟩ := hb
            exact ⟨by simp only; omega, by simp only; omega, b3⟩
        | cons x' a =>
          have ha' : x.flatCount = 1 ∧ x.flatOffset < 2 ^ 31 ∧ ValidPath (x' :: a) := ha
          obtain ⟨a1, a2, a3⟩ := ha'
          cases b with
          | nil =>
            simp [fresh] at hf'
            subst hf'
            obtain ⟨b1, b2, b3⟩ := hb
            exact ⟨by simp only; omega, by simp only; omega, a3⟩
          | cons y' b =>
            have hb' : y.flatCount = 1 ∧ y.flatOffset < 2 ^ 31 ∧ ValidPath (y' :: b) := hb
            obtain ⟨b1, b2, b3⟩ := hb'
            have hv := ih a3 b3 hf'
            cases f' with
            | nil => exact hv.elim
            | cons z f' => exact ⟨by simp only; omega, by simp only; omega, hv⟩

/-! ## The stale path is always absorbed -/

/-- `host` contains `path` and is not longer. -/
def Host (host path : SPath) : Prop := (wraps host path).1 = true ∧ path.length ≥ host.length

theorem host_self {p : SPath} (h : p ≠ []) : Host p p := by
  refine ⟨?_, Nat.le_refl _⟩
  have hl : 0 < p.length := List.length_pos_iff.mpr h
  unfold wraps
  simp only [min_self, beq_self_eq_true, if_true]
  have : p[p.length - 1]? = some p[p.length - 1] := List.getElem?_eq_getElem (by omega)
  rw [this]
  simp

theorem host_append {h s : SPath} (f : SPath) (hh : Host h s) : Host h (s ++ f) := by
  obtain ⟨h1, h2⟩ := hh
  refine ⟨?_, by rw [List.length_append]; omega⟩
  unfold wraps at h1 ⊢
  have e1 : min s.length h.length = h.length := by omega
  have e2 : min (s ++ f).length h.length = h.length := by rw [List.length_append]; omega
  rw [e1] at h1
  rw [e2]
  have hne : h ≠ [] := by
    rintro rfl
    simp at h1
  have hl : 0 < h.length := List.length_pos_iff.mpr hne
  have e3 : (s ++ f).take (h.length - 1) = s.take (h.length - 1) := List.take_append_of_le_length (by omega)
  have e4 : (s ++ f)[h.length - 1]? = s[h.length - 1]? := List.getElem?_append_left (by omega)
  simp only [e3, e4]
  exact h1

theorem unionLoop_host (path : SPath) (hp : path ≠ []) (kept rest : Paths) :
    ∃ h ∈ (unionLoop path kept rest).1, Host h path := by
  induction rest generalizing kept with
  | nil => exact ⟨path, by simp [unionLoop], host_self hp⟩
  | cons host rest ih =>
    unfold unionLoop
    simp only
    split_ifs with c1 c2
    · refine ⟨host, by simp, ?_⟩
      simp only [Bool.and_eq_true, decide_eq_true_eq] at c1
      exact c1
    · exact ih kept
    · exact ih _

theorem unionLoop_absorbed (path : SPath) (kept rest : Paths) (h : ∃ h ∈ rest, Host h path) :
    ∀ p ∈ (unionLoop path kept rest).1, p ∈ kept ∨ p ∈ rest := by
  induction rest generalizing kept with
  | nil => obtain ⟨x, hx, _⟩ := h; simp at hx
  | cons host rest ih =>
    intro p hp
    unfold unionLoop at hp
    simp only at hp
    obtain ⟨x, hx, hh⟩ := h
    have hrest : ¬ ((wraps host path).1 && decide (path.length ≥ host.length)) = true → ∃ h ∈ rest, Host h path := by
      intro hn
      rcases List.mem_cons.mp hx with rfl | hx
      · exfalso; apply hn
        simp only [Bool.and_eq_true, decide_eq_true_eq]
        exact hh
      · exact ⟨x, hx, hh⟩
    split_ifs at hp with c1 c2
    · simpa using hp
    · rcases ih kept (hrest c1) p hp with h | h
      · exact Or.inl h
      · exact Or.inr (by simp [h])
    · rcases ih (kept ++ [host]) (hrest c1) p hp with h | h
      · rcases List.mem_append.mp h with h | h
        · exact Or.inl h
        · rw [List.mem_singleton] at h; subst h; exact Or.inr (by simp)
      · exact Or.inr (by simp [h])

/-- The state of `Paths_inter`: every path of the result is the intersection of a pair. -/
structure InterInv (P : SPath → Prop) (s : Paths × SPath) : Prop where
  ok : ∀ p ∈ s.1, P p
  stale : s.2 = [] ∨ ∃ h ∈ s.1, Host h s.2

theorem interPair_inv {P : SPath → Prop} {a b : SPath} {s : Paths × SPath} (hs : InterInv P s)
    (hab : ∀ f, fresh a b = some f → P f ∧ f ≠ []) : InterInv P (interPair a s b) := by
  obtain ⟨res, st⟩ := s
  rw [interPair_fresh]
  cases hf : fresh a b with
  | none => exact ⟨hs.ok, Or.inl rfl⟩
  | some f =>
    obtain ⟨hPf, hfne⟩ := hab f hf
    refine ⟨?_, Or.inr (unionLoop_host _ (by simp [hfne]) _ _)⟩
    intro p hp
    rcases hs.stale with h | ⟨h, hm, hh⟩
    · simp only at h
      subst h
      simp only [List.nil_append] at hp
      rcases addPath_mem hp with hp | hp
      · exact hs.ok p hp
      · subst hp; exact hPf
    · rcases unionLoop_absorbed (st ++ f) [] res ⟨h, hm, host_append f hh⟩ p hp with hp | hp
      · simp at hp
      · exact hs.ok p hp

theorem interPair_ne {a b : SPath} {s : Paths × SPath} :
    (interPair a s b).1 ≠ [] ↔ s.1 ≠ [] ∨ pathsOverlap a b = true := by
  obtain ⟨res, st⟩ := s
  rw [interPair_fresh]
  cases hf : fresh a b with
  | none =>
    have := (fresh_none a b).mp hf
    simp [this]
  | some f =>
    have : pathsOverlap a b = true := by
      by_contra h
      rw [Bool.not_eq_true] at h
      rw [(fresh_none a b).mpr h] at hf
      cases hf
    simp [this, addPath_ne_nil]

/-- The intersection of the paths of a region as the code computes it. -/
def interPaths (pa pb : Paths) : Paths := (pa.foldl (fun s a => pb.foldl (interPair a) s) ([], [])).1

theorem foldl_inv {α β : Type} (I : α → Prop) (f : α → β → α) (l : List β) (h : ∀ s, ∀ x ∈ l, I s → I (f s x)) (s : α) (hs : I s) :
    I (l.foldl f s) := by
  induction l generalizing s with
  | nil => exact hs
  | cons x l ih => exact ih (fun s y hy => h s y (by simp [hy])) _ (h s x (by simp) hs)

theorem interPaths_all {P : SPath → Prop} {pa pb : Paths}
    (h : ∀ a ∈ pa, ∀ b ∈ pb, ∀ f, fresh a b = some f → P f ∧ f ≠ []) : ∀ p ∈ interPaths pa pb, P p := by
  have : InterInv P (pa.foldl (fun s a => pb.foldl (interPair a) s) ([], [])) := by
    apply foldl_inv (InterInv P)
    · intro s a ha hs
      apply foldl_inv (InterInv P) _ _ _ _ hs
      intro s b hb hs
      exact interPair_inv hs (h a ha b hb)
    · exact ⟨by simp, Or.inl rfl⟩
  exact this.ok

theorem foldl_ne {α : Type} (f : Paths × SPath → α → Paths × SPath) (g : α → Bool) (l : List α)
    (h : ∀ s, ∀ x ∈ l, (f s x).1 ≠ [] ↔ s.1 ≠ [] ∨ g x = true) (s : Paths × SPath) :
    (l.foldl f s).1 ≠ [] ↔ s.1 ≠ [] ∨ l.any g = true := by
  induction l generalizing s with
  | nil => simp
  | cons x l ih =>
    rw [List.foldl_cons, ih (fun s y hy => h s y (by simp [hy])), h s x (by simp), List.any_cons, Bool.or_eq_true, or_assoc]

theorem interPaths_ne (pa pb : Paths) : interPaths pa pb ≠ [] ↔ pa.any (fun a => pb.any (pathsOverlap a)) = true := by
  unfold interPaths
  rw [foldl_ne _ (fun a => pb.any (pathsOverlap a))]
  · simp
  · intro s a _
    exact foldl_ne _ (pathsOverlap a) pb (fun s b _ => interPair_ne) s

theorem fresh_ne_nil {a b f : SPath} (ha : ValidPath a) (hb : ValidPath b) (h : fresh a b = some f) : f ≠ [] := by
  have := fresh_valid ha hb h
  rintro rfl
  exact this

/-- The paths of a region as `Lifetime_inter` intersects them, `[]` for no path at all. -/
def meetPaths (p p' : Paths) : Paths :=
  if p = p' ∨ p' = whole then p else if p = whole then p'
  else if (encPaths p).length < (encPaths p').length then interPaths p' p else interPaths p p'

theorem encPaths_isEmpty {ps : Paths} (h : ∀ p ∈ ps, ValidPath p) : (encPaths ps).isEmpty = decide (ps = []) := by
  cases ps with
  | nil => rfl
  | cons p ps =>
    have := encPaths_length (p :: ps) (fun q hq => (h q hq).enc.ne_nil)
    have hne : encPaths (p :: ps) ≠ [] := by
      intro h0; rw [h0] at this; simp at this
    cases hx : encPaths (p :: ps) with
    | nil => exact absurd hx hne
    | cons _ _ => rfl

theorem interPaths_valid {pa pb : Paths} (ha : ∀ p ∈ pa, ValidPath p) (hb : ∀ p ∈ pb, ValidPath p) :
    ∀ p ∈ interPaths pa pb, ValidPath p :=
  interPaths_all (fun a h b h' _ hf => ⟨fresh_valid (ha a h) (hb b h') hf, fresh_ne_nil (ha a h) (hb b h') hf⟩)

theorem Paths_inter_enc {p p' : Paths} (h : p ≠ [] ∧ ∀ x ∈ p, ValidPath x) (h' : p' ≠ [] ∧ ∀ x ∈ p', ValidPath x) :
    Paths_inter [] (encPaths p) (encPaths p') =
      some (encPaths (if (encPaths p).length < (encPaths p').length then interPaths p' p else interPaths p p')) := by
  have e := parsePaths_enc p ⟨h.1, fun x hx => (h.2 x hx).enc⟩
  have e' := parsePaths_enc p' ⟨h'.1, fun x hx => (h'.2 x hx).enc⟩
  unfold Paths_inter
  split_ifs with c
  · unfold Paths_inter'
    rw [e, e']
    simp only [Option.bind_eq_bind, Option.bind_some]
    have := appendPaths_eq (interPaths p' p) (fun x hx => (interPaths_valid h'.2 h.2 x hx).enc) []
    rw [List.nil_append] at this
    exact congrArg some this
  · unfold Paths_inter'
    rw [e, e']
    simp only [Option.bind_eq_bind, Option.bind_some]
    have := appendPaths_eq (interPaths p p') (fun x hx => (interPaths_valid h.2 h'.2 x hx).enc) []
    rw [List.nil_append] at this
    exact congrArg some this

theorem meetPaths_valid {p p' : Paths} (h : ValidPaths p) (h' : ValidPaths p') :
    meetPaths p p' = [] ∨ ValidPaths (meetPaths p p') := by
  unfold meetPaths
  split_ifs with c1 c2 c3
  · exact Or.inr h
  · exact Or.inr h'
  · have a := h.of_ne c2
    have b := h'.of_ne (fun h => c1 (Or.inr h))
    by_cases h0 : interPaths p' p = []
    · exact Or.inl h0
    · exact Or.inr (Or.inr ⟨h0, interPaths_valid b.2 a.2⟩)
  · have a := h.of_ne c2
    have b := h'.of_ne (fun h => c1 (Or.inr h))
    by_cases h0 : interPaths p p' = []
    · exact Or.inl h0
    · exact Or.inr (Or.inr ⟨h0, interPaths_valid a.2 b.2⟩)

theorem inter_both (s : Str) (r : BitVec 32) (p p' : Paths) (h : ValidPaths p) (h' : ValidPaths p') :
    interVisitors.both s (leb r.toNat) (encPaths p) (encPaths p') r =
      some (.inr (if meetPaths p p' = [] then s else s ++ leb r.toNat ++ encPaths (meetPaths p p'))) := by
  have hne : p ≠ [] := h.enc.1
  have hne' : p' ≠ [] := h'.enc.1
  unfold interVisitors meetPaths
  simp only [enc_beq h h', enc_beq_empty h, enc_beq_empty h', Bool.or_eq_true, decide_eq_true_eq]
  by_cases c1 : p = p' ∨ p' = whole
  · rw [if_pos c1, if_pos c1, if_neg hne]
  rw [if_neg c1, if_neg c1]
  by_cases c2 : p = whole
  · rw [if_pos c2, if_pos c2, if_neg hne']
  rw [if_neg c2, if_neg c2]
  have a := h.of_ne c2
  have b := h'.of_ne (fun h => c1 (Or.inr h))
  rw [Paths_inter_enc a b]
  simp only [Option.bind_eq_bind, Option.bind_some]
  rw [encPaths_isEmpty]
  · simp only [decide_eq_true_eq]
  · split_ifs
    · exact interPaths_valid b.2 a.2
    · exact interPaths_valid a.2 b.2

/-- The intersection of decoded lifetimes. -/
def interA (l : List (BitVec 32 × Paths × Paths)) : Regions :=
  (l.map (fun e => (e.1, meetPaths e.2.1 e.2.2))).filter (fun e => decide (e.2 ≠ []))

theorem foldBoth_inter (l : List (BitVec 32 × Paths × Paths)) (s : Str) :
    foldBoth (fun s r p p' => (.inr (if meetPaths p p' = [] then s else s ++ leb r.toNat ++ encPaths (meetPaths p p')) :
      Unit ⊕ Str)) l s = .inr (s ++ encode (interA l)) := by
  induction l generalizing s with
  | nil => simp [foldBoth, interA, encode]
  | cons e l ih =>
    obtain ⟨r, p, p'⟩ := e
    unfold foldBoth
    simp only
    rw [ih]
    have : interA ((r, p, p') :: l) = if meetPaths p p' = [] then interA l else (r, meetPaths p p') :: interA l := by
      unfold interA
      rw [List.map_cons, List.filter_cons]
      by_cases c : meetPaths p p' = [] <;> simp [c]
    rw [this]
    by_cases c : meetPaths p p' = []
    · simp [c]
    · rw [if_neg c, if_neg c, encode_cons]; simp

theorem Lifetime_inter_enc {a b : Regions} (ha : Valid a) (hb : Valid b) :
    Lifetime_inter (encode a) (encode b) = some (encode (interA (common a b))) := by
  unfold Lifetime_inter
  rw [merge_enc interVisitors _ (fun s _ => s)
    (fun s r p p' h h' => inter_both s r p p' h h') (fun s r p => rfl) a b ha.paths hb.paths []]
  have h1 := mergeA_common (fun s r p p' =>
    (.inr (if meetPaths p p' = [] then s else s ++ leb r.toNat ++ encPaths (meetPaths p p')) : Unit ⊕ Str)) a b []
  rw [foldBoth_inter, List.nil_append] at h1
  simp only [Option.bind_eq_bind, Option.bind_some]
  have e1 : interVisitors.leftDone = fun _ => none := rfl
  have e2 : interVisitors.rightDone = fun _ => none := rfl
  rw [e1, e2]
  revert h1
  generalize mergeA _ _ _ _ a b [] = m
  cases m with
  | ret x => intro h; cases h
  | rest s l => intro h; exact congrArg some (Sum.inr.inj h)

theorem interA_valid {a b : Regions} (ha : Valid a) (hb : Valid b) : Valid (interA (common a b)) := by
  refine ⟨?_, ?_⟩
  · unfold interA
    apply List.Pairwise.filter
    rw [List.pairwise_map]
    exact common_sorted ha hb
  · intro e he
    unfold interA at he
    rw [List.mem_filter] at he
    obtain ⟨he, h0⟩ := he
    obtain ⟨⟨r, p, p'⟩, hx, rfl⟩ := List.mem_map.mp he
    obtain ⟨h1, h2⟩ := (common_mem ha hb r p p').mp hx
    rcases meetPaths_valid (ha.paths _ h1) (hb.paths _ h2) with h | h
    · simp [h] at h0
    · exact h

theorem interA_denotes {a b : Regions} (ha : Valid a) (hb : Valid b) (r : BitVec 32) (q : List Nat) :
    denotes (interA (common a b)) r q ↔ ∃ p p', (r, p) ∈ a ∧ (r, p') ∈ b ∧ den (meetPaths p p') q := by
  unfold denotes interA
  constructor
  · rintro ⟨ps, hm, h⟩
    rw [List.mem_filter] at hm
    obtain ⟨⟨r', p, p'⟩, hx, heq⟩ := List.mem_map.mp hm.1
    simp only [Prod.mk.injEq] at heq
    obtain ⟨rfl, rfl⟩ := heq
    obtain ⟨h1, h2⟩ := (common_mem ha hb r' p p').mp hx
    exact ⟨p, p', h1, h2, h⟩
  · rintro ⟨p, p', h1, h2, h⟩
    refine ⟨meetPaths p p', List.mem_filter.mpr ⟨List.mem_map.mpr ⟨(r, p, p'), (common_mem ha hb r p p').mpr ⟨h1, h2⟩, rfl⟩, ?_⟩, h⟩
    simp only [ne_eq, decide_not, Bool.not_eq_true', decide_eq_false_iff_not]
    intro h0
    rw [h0] at h
    rcases h with h | ⟨x, hx, _⟩
    · simp [whole] at h
    · simp at hx

/-! ## What holds -/

/-- The paths of the two lifetimes are nested, region by region. -/
def NestedIn (a b : Regions) : Prop :=
  ∀ r p p', (r, p) ∈ a → (r, p') ∈ b → ∀ x ∈ p, ∀ y ∈ p', NestedPath x y

theorem nestedPath_comm {a b : SPath} (h : NestedPath a b) : NestedPath b a := by
  induction a generalizing b with
  | nil => cases b <;> trivial
  | cons x a ih =>
    cases b with
    | nil => trivial
    | cons y b =>
      refine ⟨?_, ih h.2⟩
      have := h.1
      unfold Nested at this ⊢
      tauto

theorem interPaths_sound {pa pb : Paths} (ha : ∀ p ∈ pa, ValidPath p) (hb : ∀ p ∈ pb, ValidPath p)
    (hn : ∀ x ∈ pa, ∀ y ∈ pb, NestedPath x y) {q : List Nat} (h : cov (interPaths pa pb) q) : cov pa q ∧ cov pb q := by
  obtain ⟨p, hp, hq⟩ := h
  have := interPaths_all (P := fun p => ∀ q, covers p q → cov pa q ∧ cov pb q) (pa := pa) (pb := pb)
    (fun a h b h' f hf => ⟨fun q hq => by
      have := (fresh_covers (hn a h b h') (ha a h).pos (hb b h').pos hf q).mp hq
      exact ⟨⟨a, h, this.1⟩, ⟨b, h', this.2⟩⟩, fresh_ne_nil (ha a h) (hb b h') hf⟩) p hp
  exact this q hq

/-- `Lifetime_inter` never invents storage (for nested ranges), and it is empty exactly when the two lifetimes share
no place.  It can lose places: `C54_lost_place`. -/
theorem C54_inter_sound_partial {a b : Regions} (ha : Valid a) (hb : Valid b) (hn : NestedIn a b) :
    ∃ c, Lifetime_inter (encode a) (encode b) = some (encode c) ∧ Valid c ∧
      (∀ r q, denotes c r q → denotes a r q ∧ denotes b r q) ∧
      ∀ r, (∃ q, denotes c r q) ↔ ∃ q, denotes a r q ∧ denotes b r q := by
  have sound : ∀ r q, denotes (interA (common a b)) r q → denotes a r q ∧ denotes b r q := by
    intro r q h
    obtain ⟨p, p', h1, h2, h⟩ := (interA_denotes ha hb r q).mp h
    have hv := ha.paths _ h1
    have hv' := hb.paths _ h2
    suffices den p q ∧ den p' q from ⟨⟨p, h1, this.1⟩, ⟨p', h2, this.2⟩⟩
    unfold meetPaths at h
    split_ifs at h with c1 c2 c3
    · rcases c1 with c1 | c1
      · subst c1; exact ⟨h, h⟩
      · exact ⟨h, Or.inl c1⟩
    · exact ⟨Or.inl c2, h⟩
    · have x := hv.of_ne c2
      have y := hv'.of_ne (fun h => c1 (Or.inr h))
      rcases h with h | h
      · exact absurd h (whole_not_valid (interPaths_valid y.2 x.2))
      · have := interPaths_sound y.2 x.2 (fun u hu v hv => nestedPath_comm (hn r p p' h1 h2 v hv u hu)) h
        exact ⟨Or.inr this.2, Or.inr this.1⟩
    · have x := hv.of_ne c2
      have y := hv'.of_ne (fun h => c1 (Or.inr h))
      rcases h with h | h
      · exact absurd h (whole_not_valid (interPaths_valid x.2 y.2))
      · have := interPaths_sound x.2 y.2 (fun u hu v hv => hn r p p' h1 h2 u hu v hv) h
        exact ⟨Or.inr this.1, Or.inr this.2⟩
  refine ⟨_, Lifetime_inter_enc ha hb, interA_valid ha hb, sound, fun r => ⟨?_, ?_⟩⟩
  · rintro ⟨q, h⟩; exact ⟨q, sound r q h⟩
  · rintro ⟨q, ⟨p, h1, hp⟩, ⟨p', h2, hp'⟩⟩
    have hv := ha.paths _ h1
    have hv' := hb.paths _ h2
    have ov := (overlapB_iff hv hv').mpr ⟨q, hp, hp'⟩
    have hne : meetPaths p p' ≠ [] := by
      unfold meetPaths
      split_ifs with c1 c2 c3
      · exact hv.enc.1
      · exact hv'.enc.1
      · have x := hv.of_ne c2
        have y := hv'.of_ne (fun h => c1 (Or.inr h))
        rw [interPaths_ne]
        have ov' := (overlapB_iff hv' hv).mpr ⟨q, hp', hp⟩
        unfold overlapB at ov'
        have c1' : ¬ p' = p := fun h => c1 (Or.inl h.symm)
        have c4 : ¬ p' = whole := fun h => c1 (Or.inr h)
        rw [decide_eq_false c1', decide_eq_false c2, decide_eq_false c4, Bool.false_or, Bool.false_or, Bool.false_or] at ov'
        exact ov'
      · have x := hv.of_ne c2
        have y := hv'.of_ne (fun h => c1 (Or.inr h))
        rw [interPaths_ne]
        unfold overlapB at ov
        have c1' : ¬ p = p' := fun h => c1 (Or.inl h)
        have c4 : ¬ p' = whole := fun h => c1 (Or.inr h)
        rw [decide_eq_false c1', decide_eq_false c2, decide_eq_false c4, Bool.false_or, Bool.false_or, Bool.false_or] at ov
        exact ov
    rcases meetPaths_valid hv hv' with h | h
    · exact absurd h hne
    · obtain ⟨q', hq'⟩ := den_some h
      exact ⟨q', (interA_denotes ha hb r q').mpr ⟨p, p', h1, h2, hq'⟩⟩

/-- Every region has one path, or is not divided. -/
def OnePath (l : Regions) : Prop := ∀ e ∈ l, ∃ p, e.2 = [p]

/-- `Lifetime_inter` is the intersection, for lifetimes with one path per region. -/
theorem C54_inter_partial {a b : Regions} (ha : Valid a) (hb : Valid b) (hn : NestedIn a b) (h1 : OnePath a) (h1' : OnePath b) :
    ∃ c, Lifetime_inter (encode a) (encode b) = some (encode c) ∧ Valid c ∧
      ∀ r q, denotes c r q ↔ denotes a r q ∧ denotes b r q := by
  refine ⟨_, Lifetime_inter_enc ha hb, interA_valid ha hb, fun r q => ⟨?_, ?_⟩⟩
  · intro h
    obtain ⟨c, hc, _, hs, _⟩ := C54_inter_sound_partial ha hb hn
    rw [Lifetime_inter_enc ha hb, Option.some.injEq] at hc
    exact hs r q (by rw [← C30_injective (interA_valid ha hb) ‹_› hc]; exact h)
  · rintro ⟨⟨p, hm, hp⟩, ⟨p', hm', hp'⟩⟩
    rw [interA_denotes ha hb]
    refine ⟨p, p', hm, hm', ?_⟩
    have hv := ha.paths _ hm
    have hv' := hb.paths _ hm'
    have key : ∀ x y : SPath, ValidPath x → ValidPath y → NestedPath x y → covers x q → covers y q → cov (interPaths [x] [y]) q := by
      intro x y vx vy hxy cx cy
      unfold interPaths
      rw [List.foldl_cons, List.foldl_nil, List.foldl_cons, List.foldl_nil, interPair_fresh]
      cases hf : fresh x y with
      | none =>
        exfalso
        have := (fresh_none x y).mp hf
        rw [(pathsOverlap_iff vx.pos vy.pos).mpr ⟨q, cx, cy⟩] at this
        cases this
      | some f =>
        simp only [List.nil_append]
        rw [addPath_cov]
        exact Or.inr ((fresh_covers hxy vx.pos vy.pos hf q).mpr ⟨cx, cy⟩)
    unfold meetPaths
    split_ifs with c1 c2 c3
    · exact hp
    · exact hp'
    · obtain ⟨x, hx⟩ := h1 _ hm
      obtain ⟨y, hy⟩ := h1' _ hm'
      simp only at hx hy
      subst hx; subst hy
      have vx := (hv.of_ne c2).2 x (by simp)
      have vy := (hv'.of_ne (fun h => c1 (Or.inr h))).2 y (by simp)
      rcases hp with hp | ⟨x', hx', cx⟩
      · exact absurd hp c2
      rcases hp' with hp' | ⟨y', hy', cy⟩
      · exact absurd (Or.inr hp') c1
      rw [List.mem_singleton] at hx' hy'
      subst hx'; subst hy'
      exact Or.inr (key y' x' vy vx (nestedPath_comm (hn r _ _ hm hm' x' (by simp) y' (by simp))) cy cx)
    · obtain ⟨x, hx⟩ := h1 _ hm
      obtain ⟨y, hy⟩ := h1' _ hm'
      simp only at hx hy
      subst hx; subst hy
      have vx := (hv.of_ne c2).2 x (by simp)
      have vy := (hv'.of_ne (fun h => c1 (Or.inr h))).2 y (by simp)
      rcases hp with hp | ⟨x', hx', cx⟩
      · exact absurd hp c2
      rcases hp' with hp' | ⟨y', hy', cy⟩
      · exact absurd (Or.inr hp') c1
      rw [List.mem_singleton] at hx' hy'
      subst hx'; subst hy'
      exact Or.inr (key x' y' vx vy (hn r _ _ hm hm' x' (by simp) y' (by simp)) cx cy)

/-! ## What does not -/

/-- Two fields of local 3. -/
def twoFields : Regions := [(12#32, [[⟨1, 0⟩], [⟨1, 2⟩]])]
/-- All four fields of local 3. -/
def allFields : Regions := [(12#32, [[⟨4, 0⟩]])]
/-- Fields 2 to 5 of local 3. -/
def lateFields : Regions := [(12#32, [[⟨4, 2⟩]])]

theorem twoFields_valid : Valid twoFields := by
  refine valid_cons (Or.inr ⟨by simp, fun p hp => ?_⟩) (by simp) valid_nil
  simp only [List.mem_cons, List.not_mem_nil, or_false] at hp
  rcases hp with rfl | rfl <;> exact ⟨by decide, by decide, by decide⟩

theorem allFields_valid : Valid allFields := by
  refine valid_cons (Or.inr ⟨by simp, fun p hp => ?_⟩) (by simp) valid_nil
  simp only [List.mem_cons, List.not_mem_nil, or_false] at hp
  subst hp; exact ⟨by decide, by decide, by decide⟩

theorem lateFields_valid : Valid lateFields := by
  refine valid_cons (Or.inr ⟨by simp, fun p hp => ?_⟩) (by simp) valid_nil
  simp only [List.mem_cons, List.not_mem_nil, or_false] at hp
  subst hp; exact ⟨by decide, by decide, by decide⟩

theorem twoFields_enc : encode twoFields = [12#8, 0#8, 3#8, 4#8, 2#8] := by
  simp [twoFields, encode, encPaths, encPath, leb_small]
theorem allFields_enc : encode allFields = [12#8, 0#8, 8#8] := by
  simp [allFields, encode, encPaths, encPath, leb_small]
theorem lateFields_enc : encode lateFields = [12#8, 4#8, 8#8] := by
  simp [lateFields, encode, encPaths, encPath, leb_small]

/-- `Lifetime_inter` can lose storage: fields 0 and 2 of a variable, intersected with all of its fields, is field 0. -/
theorem C54_lost_place :
    ∃ a b c r q, Valid a ∧ Valid b ∧ NestedIn a b ∧ Lifetime_inter (encode a) (encode b) = some (encode c) ∧ Valid c ∧
      denotes a r q ∧ denotes b r q ∧ ¬ denotes c r q := by
  refine ⟨twoFields, allFields, [(12#32, [[⟨1, 0⟩]])], 12#32, [2], twoFields_valid, allFields_valid, ?_, ?_, ?_, ?_, ?_, ?_⟩
  · intro r p p' h h'
    simp only [twoFields, allFields, List.mem_singleton, Prod.mk.injEq] at h h'
    obtain ⟨_, rfl⟩ := h
    obtain ⟨_, rfl⟩ := h'
    intro x hx y hy
    simp only [List.mem_cons, List.not_mem_nil, or_false] at hx hy
    subst hy
    rcases hx with rfl | rfl
    · exact ⟨by unfold Nested; decide, trivial⟩
    · exact ⟨by unfold Nested; decide, trivial⟩
  · have e : encode [(12#32, [[⟨1, 0⟩]])] = [12#8, 0#8, 2#8] := by
      simp [encode, encPaths, encPath, leb_small]
    rw [twoFields_enc, allFields_enc, e]
    decide +kernel
  · refine valid_cons (Or.inr ⟨by simp, fun p hp => ?_⟩) (by simp) valid_nil
    simp only [List.mem_singleton] at hp
    subst hp; exact ⟨by decide, by decide, by decide⟩
  · exact ⟨_, List.mem_singleton.mpr rfl, Or.inr ⟨[⟨1, 2⟩], by simp, by decide, by decide, trivial⟩⟩
  · exact ⟨_, List.mem_singleton.mpr rfl, Or.inr ⟨[⟨4, 0⟩], by simp, by decide, by decide, trivial⟩⟩
  · rintro ⟨ps, h, h'⟩
    rw [List.mem_singleton, Prod.mk.injEq] at h
    obtain ⟨_, rfl⟩ := h
    rcases h' with h' | ⟨p, hp, h'⟩
    · revert h'; decide
    · rw [List.mem_singleton] at hp
      subst hp
      exact absurd h'.2.1 (by decide)

/-- For ranges that overlap without being nested, `Lifetime_inter` can invent storage: fields 0 to 3 and fields 2 to 5 of a
variable have fields 2 and 3 in common, the result is fields 2 to 5. -/
theorem C54_extra_place :
    ∃ a b c r q, Valid a ∧ Valid b ∧ Lifetime_inter (encode a) (encode b) = some (encode c) ∧ Valid c ∧
      denotes c r q ∧ ¬ denotes a r q := by
  refine ⟨allFields, lateFields, lateFields, 12#32, [5], allFields_valid, lateFields_valid, ?_, lateFields_valid, ?_, ?_⟩
  · rw [allFields_enc, lateFields_enc]
    decide +kernel
  · exact ⟨_, List.mem_singleton.mpr rfl, Or.inr ⟨[⟨4, 2⟩], by simp, by decide, by decide, trivial⟩⟩
  · rintro ⟨ps, h, h'⟩
    simp only [allFields, List.mem_singleton, Prod.mk.injEq] at h
    obtain ⟨_, rfl⟩ := h
    rcases h' with h' | ⟨p, hp, h'⟩
    · revert h'; decide
    · rw [List.mem_singleton] at hp
      subst hp
      exact absurd h'.2.1 (by decide)

example : Lifetime_inter [9#8, 0#8, 0#8, 12#8, 0#8, 8#8] [12#8, 4#8, 2#8, 1#8, 0#8, 0#8] = some [12#8, 4#8, 2#8] := by
  decide +kernel

end Verif.Lifetime
