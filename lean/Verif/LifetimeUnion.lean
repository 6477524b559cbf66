import Verif.LifetimeMerge
/-!
# `Lifetime_union`, `Lifetime_each` and the intersections on encoded lifetimes
-/
namespace Verif.Lifetime
open Verif

/-- The union of the paths of a region. -/
def joinPaths (p p' : Paths) : Paths :=
  if p = p' ∨ p = whole then p else if p' = whole then p' else p'.foldl addPath p

theorem whole_valid : ValidPaths whole := Or.inl rfl

theorem ValidPaths.of_ne {ps : Paths} (h : ValidPaths ps) (hw : ps ≠ whole) : ps ≠ [] ∧ ∀ p ∈ ps, ValidPath p := by
  rcases h with h | h
  · exact absurd h hw
  · exact h

theorem joinPaths_valid {p p' : Paths} (h : ValidPaths p) (h' : ValidPaths p') : ValidPaths (joinPaths p p') := by
  unfold joinPaths
  split_ifs with c1 c2
  · exact h
  · exact h'
  · have c1' : p ≠ whole := fun h => c1 (Or.inr h)
    have a := h.of_ne c1'
    have b := h'.of_ne c2
    refine Or.inr ⟨foldl_addPath_ne_nil a.1, fun x hx => ?_⟩
    rcases foldl_addPath_mem hx with hx | hx
    · exact a.2 x hx
    · exact b.2 x hx

/-- What the paths of a region denote. -/
def den (ps : Paths) (q : List Nat) : Prop := ps = whole ∨ cov ps q

theorem joinPaths_den {p p' : Paths} (h : ValidPaths p) (h' : ValidPaths p') (q : List Nat) :
    den (joinPaths p p') q ↔ den p q ∨ den p' q := by
  unfold joinPaths
  split_ifs with c1 c2
  · rcases c1 with c1 | c1
    · subst c1; exact (or_self_iff).symm
    · unfold den; tauto
  · unfold den; tauto
  · have c1' : p ≠ whole := fun h => c1 (Or.inr h)
    have a := h.of_ne c1'
    have b := h'.of_ne c2
    have hw : p'.foldl addPath p ≠ whole := whole_not_valid (fun x hx => by
      rcases foldl_addPath_mem hx with hx | hx
      · exact a.2 x hx
      · exact b.2 x hx)
    unfold den
    rw [foldl_addPath_cov]
    tauto

/-- The union of decoded lifetimes. -/
def unionA : Regions → Regions → Regions
  | [], b => b
  | e :: a, [] => e :: a
  | (r, p) :: a, (r', p') :: b =>
    if rank r < rank r' then (r, p) :: unionA a ((r', p') :: b)
    else if rank r' < rank r then (r', p') :: unionA ((r, p) :: a) b
    else (r, joinPaths p p') :: unionA a b
termination_by a b => a.length + b.length

theorem union_both (a b : Str) (s : Str) (r : BitVec 32) (p p' : Paths) (h : ValidPaths p) (h' : ValidPaths p') :
    (unionVisitors a b).both s (leb r.toNat) (encPaths p) (encPaths p') r =
      some (.inr (s ++ leb r.toNat ++ encPaths (joinPaths p p'))) := by
  have e1 : (encPaths p == encPaths p') = decide (p = p') := by
    by_cases c : p = p'
    · subst c; simp
    · rw [decide_eq_false c, beq_eq_false_iff_ne]
      exact fun e => c (encPaths_inj h.enc h'.enc e)
  have e2 : ∀ p, ValidPaths p → (encPaths p == SR_empty) = decide (p = whole) := by
    intro p h
    by_cases c : p = whole
    · subst c; rw [encPaths_whole]; rfl
    · rw [decide_eq_false c, beq_eq_false_iff_ne]
      exact fun e => c (encPaths_inj h.enc whole_valid.enc (by rw [e, encPaths_whole]))
  unfold unionVisitors joinPaths
  simp only [e1, e2 p h, e2 p' h', Bool.or_eq_true, decide_eq_true_eq]
  split_ifs with c1 c2
  · rfl
  · rfl
  · have c1' : p ≠ whole := fun h => c1 (Or.inr h)
    have a := h.of_ne c1'
    have b := h'.of_ne c2
    unfold Paths_union
    rw [parsePaths_enc p h.enc, parsePaths_enc p' h'.enc]
    simp only [Option.bind_eq_bind, Option.bind_some]
    rw [appendPaths_eq]
    intro x hx
    rcases foldl_addPath_mem hx with hx | hx
    · exact (a.2 x hx).enc
    · exact (b.2 x hx).enc

theorem union_mergeA (A B : Regions) (a b : Regions) (s : Str) (hs : s ≠ [] ∨ (a = A ∧ b = B)) :
    (match mergeA (fun s r p p' => (.inr (s ++ leb r.toNat ++ encPaths (joinPaths p p')) : Str ⊕ Str))
        (fun s e => s ++ (leb e.1.toNat ++ encPaths e.2))
        (unionVisitors (encode A) (encode B)).leftDone (unionVisitors (encode A) (encode B)).rightDone a b s with
      | .ret x => x
      | .rest s l => s ++ encode l) = s ++ encode (unionA a b) := by
  have ne : ∀ (s t : Str) (r : BitVec 32), s ++ (leb r.toNat ++ t) ≠ [] := by
    intro s t r h
    have := leb_ne_nil r.toNat
    simp at h
    exact this h.2.1
  fun_induction unionA a b generalizing s with
  | case1 b =>
    unfold mergeA unionVisitors
    simp only
    by_cases c : s = []
    · subst c
      rcases hs with hs | hs
      · exact absurd rfl hs
      · simp [hs.2]
    · have : s.isEmpty = false := by cases s <;> simp_all
      simp [this]
  | case2 e a =>
    unfold mergeA unionVisitors
    simp only
    by_cases c : s = []
    · subst c
      rcases hs with hs | hs
      · exact absurd rfl hs
      · simp [← hs.1]
    · have : s.isEmpty = false := by cases s <;> simp_all
      simp [this]
  | case3 r p a r' p' b c ih =>
    unfold mergeA
    rw [if_pos c, ih _ (Or.inl (ne _ _ _)), encode_cons]
    simp
  | case4 r p a r' p' b c1 c2 ih =>
    unfold mergeA
    rw [if_neg c1, if_pos c2, ih _ (Or.inl (ne _ _ _)), encode_cons]
    simp
  | case5 r p a r' p' b c1 c2 ih =>
    unfold mergeA
    rw [if_neg c1, if_neg c2]
    simp only
    rw [ih _ (Or.inl (by rw [List.append_assoc]; exact ne _ _ _)), encode_cons]
    simp

/-- `Lifetime_union` on encoded lifetimes. -/
theorem Lifetime_union_enc {a b : Regions} (ha : Valid a) (hb : Valid b) :
    Lifetime_union (encode a) (encode b) = some (encode (unionA a b)) := by
  unfold Lifetime_union
  rw [merge_enc (unionVisitors (encode a) (encode b)) _ (fun s e => s ++ (leb e.1.toNat ++ encPaths e.2))
    (fun s r p p' h h' => union_both _ _ s r p p' h h') (fun s r p => rfl) a b ha.paths hb.paths []]
  have := union_mergeA a b a b [] (Or.inr ⟨rfl, rfl⟩)
  rw [List.nil_append] at this
  simp only [Option.bind_eq_bind, Option.bind_some]
  revert this
  generalize mergeA _ _ _ _ a b [] = m
  cases m with
  | ret x => exact fun h => congrArg some h
  | rest s l => exact fun h => congrArg some h

theorem unionA_mem {a b : Regions} {r : BitVec 32} {ps : Paths} (h : (r, ps) ∈ unionA a b) :
    (∃ x, (r, x) ∈ a) ∨ ∃ x, (r, x) ∈ b := by
  fun_induction unionA a b with
  | case1 b => exact Or.inr ⟨_, h⟩
  | case2 e a => exact Or.inl ⟨_, h⟩
  | case3 r p a r' p' b c ih =>
    simp only [List.mem_cons] at h
    rcases h with h | h
    · cases h; exact Or.inl ⟨ps, by simp⟩
    · rcases ih h with ⟨x, h⟩ | h
      · exact Or.inl ⟨x, by simp [h]⟩
      · exact Or.inr h
  | case4 r p a r' p' b c1 c2 ih =>
    simp only [List.mem_cons] at h
    rcases h with h | h
    · cases h; exact Or.inr ⟨ps, by simp⟩
    · rcases ih h with h | ⟨x, h⟩
      · exact Or.inl h
      · exact Or.inr ⟨x, by simp [h]⟩
  | case5 r p a r' p' b c1 c2 ih =>
    simp only [List.mem_cons] at h
    rcases h with h | h
    · cases h; exact Or.inl ⟨p, by simp⟩
    · rcases ih h with ⟨x, h⟩ | ⟨x, h⟩
      · exact Or.inl ⟨x, by simp [h]⟩
      · exact Or.inr ⟨x, by simp [h]⟩

theorem valid_nil : Valid [] := ⟨List.Pairwise.nil, by simp⟩

theorem Valid.tail {e : BitVec 32 × Paths} {l : Regions} (h : Valid (e :: l)) : Valid l :=
  ⟨(List.pairwise_cons.mp h.sorted).2, fun x hx => h.paths x (by simp [hx])⟩

theorem Valid.head_lt {e : BitVec 32 × Paths} {l : Regions} (h : Valid (e :: l)) {x : BitVec 32 × Paths} (hx : x ∈ l) :
    rank e.1 < rank x.1 := (List.pairwise_cons.mp h.sorted).1 x hx

theorem Valid.head {e : BitVec 32 × Paths} {l : Regions} (h : Valid (e :: l)) : ValidPaths e.2 := h.paths e (by simp)

theorem valid_cons {e : BitVec 32 × Paths} {l : Regions} (h1 : ValidPaths e.2) (h2 : ∀ x ∈ l, rank e.1 < rank x.1)
    (h3 : Valid l) : Valid (e :: l) :=
  ⟨List.pairwise_cons.mpr ⟨h2, h3.sorted⟩, fun x hx => by
    rcases List.mem_cons.mp hx with h | h
    · subst h; exact h1
    · exact h3.paths x h⟩

theorem unionA_valid {a b : Regions} (ha : Valid a) (hb : Valid b) : Valid (unionA a b) := by
  fun_induction unionA a b with
  | case1 b => exact hb
  | case2 e a => exact ha
  | case3 r p a r' p' b c ih =>
    refine valid_cons ha.head (fun x hx => ?_) (ih ha.tail hb)
    rcases unionA_mem (r := x.1) (ps := x.2) hx with ⟨y, hy⟩ | ⟨y, hy⟩
    · exact ha.head_lt (x := (x.1, y)) hy
    · rcases List.mem_cons.mp hy with e | e
      · have : x.1 = r' := congrArg Prod.fst e
        rw [this]; exact c
      · exact c.trans (hb.head_lt (x := (x.1, y)) e)
  | case4 r p a r' p' b c1 c2 ih =>
    refine valid_cons hb.head (fun x hx => ?_) (ih ha hb.tail)
    rcases unionA_mem (r := x.1) (ps := x.2) hx with ⟨y, hy⟩ | ⟨y, hy⟩
    · rcases List.mem_cons.mp hy with e | e
      · have : x.1 = r := congrArg Prod.fst e
        rw [this]; exact c2
      · exact c2.trans (ha.head_lt (x := (x.1, y)) e)
    · exact hb.head_lt (x := (x.1, y)) hy
  | case5 r p a r' p' b c1 c2 ih =>
    have hr : r = r' := rank_inj (by omega)
    refine valid_cons (joinPaths_valid ha.head hb.head) (fun x hx => ?_) (ih ha.tail hb.tail)
    rcases unionA_mem (r := x.1) (ps := x.2) hx with ⟨y, hy⟩ | ⟨y, hy⟩
    · exact ha.head_lt (x := (x.1, y)) hy
    · subst hr; exact hb.head_lt (x := (x.1, y)) hy

theorem denotes_cons (r : BitVec 32) (ps : Paths) (l : Regions) (r' : BitVec 32) (q : List Nat) :
    denotes ((r, ps) :: l) r' q ↔ (r' = r ∧ den ps q) ∨ denotes l r' q := by
  unfold denotes den cov
  simp only [List.mem_cons, Prod.mk.injEq]
  constructor
  · rintro ⟨x, ⟨h1, h2⟩ | h, h'⟩
    · subst h1; subst h2; exact Or.inl ⟨rfl, h'⟩
    · exact Or.inr ⟨x, h, h'⟩
  · rintro (⟨h1, h2⟩ | ⟨x, h, h'⟩)
    · exact ⟨ps, Or.inl ⟨h1, rfl⟩, h2⟩
    · exact ⟨x, Or.inr h, h'⟩

theorem denotes_nil (r : BitVec 32) (q : List Nat) : ¬ denotes [] r q := by
  rintro ⟨_, h, _⟩; simp at h

theorem unionA_denotes {a b : Regions} (ha : Valid a) (hb : Valid b) (r : BitVec 32) (q : List Nat) :
    denotes (unionA a b) r q ↔ denotes a r q ∨ denotes b r q := by
  fun_induction unionA a b with
  | case1 b => simp [denotes_nil]
  | case2 e a => simp [denotes_nil]
  | case3 r p a r' p' b c ih => rw [denotes_cons, denotes_cons, ih ha.tail hb]; tauto
  | case4 r p a r' p' b c1 c2 ih => rw [denotes_cons, denotes_cons r', ih ha hb.tail]; tauto
  | case5 r p a r' p' b c1 c2 ih =>
    have hr : r = r' := rank_inj (by omega)
    subst hr
    rw [denotes_cons, denotes_cons, denotes_cons, ih ha.tail hb.tail, joinPaths_den ha.head hb.head]
    tauto

theorem unionA_self {a : Regions} : unionA a a = a := by
  induction a with
  | nil => unfold unionA; rfl
  | cons e a ih =>
    obtain ⟨r, p⟩ := e
    unfold unionA
    rw [if_neg (by omega), if_neg (by omega), ih]
    simp [joinPaths]

theorem unionA_nil_right {a : Regions} : unionA a [] = a := by
  cases a <;> (unfold unionA; rfl)

/-! ## Reading a lifetime -/

theorem eachLoop_enc (pre : Str) (l : Regions) (h : ∀ e ∈ l, EncPaths e.2) (n : Nat) (hn : l.length < n) :
    ∃ x, eachLoop (pre ++ encode l) n pre.length = some x ∧
      x.map (fun (r, o0, sr, o) => (r, slice (pre ++ encode l) o0 sr, slice (pre ++ encode l) sr o)) =
        l.map (fun e => (e.1, leb e.1.toNat, encPaths e.2)) := by
  induction l generalizing pre n with
  | nil =>
    cases n with
    | zero => omega
    | succ n =>
      refine ⟨[], ?_, rfl⟩
      unfold eachLoop
      rw [if_neg (by simp [encode])]
  | cons e l ih =>
    obtain ⟨r, ps⟩ := e
    cases n with
    | zero => omega
    | succ n =>
      have hp := h (r, ps) (by simp)
      have hlen : 1 ≤ (leb r.toNat).length := List.length_pos_iff.mpr (leb_ne_nil _)
      have e1 := parse7bit_region pre (encPaths ps ++ encode l) r
      have e2 := walkPaths_enc ps hp (pre ++ leb r.toNat) (encode l)
      have a1 : pre ++ encode ((r, ps) :: l) = pre ++ leb r.toNat ++ (encPaths ps ++ encode l) := by
        rw [encode_cons]; simp
      have a2 : pre ++ encode ((r, ps) :: l) = pre ++ leb r.toNat ++ encPaths ps ++ encode l := by
        rw [encode_cons]; simp
      have s1 : slice (pre ++ encode ((r, ps) :: l)) pre.length (pre.length + (leb r.toNat).length) = leb r.toNat := by
        rw [a1]; exact slice_eq _ _ _
      have s2 : slice (pre ++ encode ((r, ps) :: l)) (pre.length + (leb r.toNat).length)
          (pre.length + (leb r.toNat).length + (encPaths ps).length) = encPaths ps := by
        rw [a2, ← List.length_append]; exact slice_eq _ _ _
      rw [← a1] at e1
      rw [← a2, List.length_append] at e2
      obtain ⟨x, hx, hm⟩ := ih (pre ++ leb r.toNat ++ encPaths ps) (fun e he => h e (by simp [he])) n (by simpa using hn)
      rw [← a2, List.length_append, List.length_append] at hx
      rw [← a2] at hm
      refine ⟨(r, pre.length, pre.length + (leb r.toNat).length, pre.length + (leb r.toNat).length + (encPaths ps).length) :: x, ?_, ?_⟩
      · unfold eachLoop
        rw [if_pos (by rw [encode_cons]; simp only [List.length_append]; omega), e1]
        simp only [Option.bind_eq_bind]
        rw [e2]
        simp only [Option.bind_some]
        rw [hx]
        rfl
      · rw [List.map_cons, List.map_cons, hm]
        simp only [s1, s2]

theorem Lifetime_each_enc (l : Regions) (h : ∀ e ∈ l, EncPaths e.2) :
    Lifetime_each (encode l) = some (l.map (fun e => (e.1, leb e.1.toNat, encPaths e.2))) := by
  obtain ⟨x, hx, hm⟩ := eachLoop_enc [] l h ((encode l).length + 1) (by have := encode_length l; omega)
  unfold Lifetime_each
  rw [List.nil_append] at hx hm
  rw [List.length_nil] at hx
  rw [hx]
  simp only [Option.bind_eq_bind, Option.bind_some]
  rw [← hm]

theorem encode_inj {a b : Regions} (ha : ∀ e ∈ a, EncPaths e.2) (hb : ∀ e ∈ b, EncPaths e.2)
    (h : encode a = encode b) : a = b := by
  have h1 := Lifetime_each_enc a ha
  rw [h, Lifetime_each_enc b hb, Option.some.injEq] at h1
  clear h
  induction a generalizing b with
  | nil => cases b <;> simp_all
  | cons e a ih =>
    cases b with
    | nil => simp at h1
    | cons e' b =>
      rw [List.map_cons, List.map_cons, List.cons.injEq, Prod.mk.injEq, Prod.mk.injEq] at h1
      have := ih (b := b) (fun e he => ha e (by simp [he])) (fun e he => hb e (by simp [he])) h1.2
      subst this
      have e2 := encPaths_inj (hb e' (by simp)) (ha e (by simp)) h1.1.2.2
      congr 1
      exact Prod.ext h1.1.1.symm e2.symm

/-! ## Regions in common -/

/-- The regions two sorted lifetimes have in common. -/
def common : Regions → Regions → List (BitVec 32 × Paths × Paths)
  | [], _ => []
  | _ :: _, [] => []
  | (r, p) :: a, (r', p') :: b =>
    if rank r < rank r' then common a ((r', p') :: b)
    else if rank r' < rank r then common ((r, p) :: a) b
    else (r, p, p') :: common a b
termination_by a b => a.length + b.length

/-- The visit of the regions in common. -/
def foldBoth {σ β : Type} (both : σ → BitVec 32 → Paths → Paths → β ⊕ σ) : List (BitVec 32 × Paths × Paths) → σ → β ⊕ σ
  | [], s => .inr s
  | (r, p, p') :: l, s => match both s r p p' with
    | .inl x => .inl x
    | .inr s => foldBoth both l s

theorem mergeA_common {σ β : Type} (both : σ → BitVec 32 → Paths → Paths → β ⊕ σ) (a b : Regions) (s : σ) :
    (match mergeA both (fun s _ => s) (fun _ => none) (fun _ => none) a b s with
      | .ret x => (.inl x : β ⊕ σ)
      | .rest s _ => .inr s) = foldBoth both (common a b) s := by
  fun_induction common a b generalizing s with
  | case1 b => unfold mergeA; rfl
  | case2 e a => unfold mergeA; rfl
  | case3 r p a r' p' b c ih => unfold mergeA; rw [if_pos c, ih]
  | case4 r p a r' p' b c1 c2 ih => unfold mergeA; rw [if_neg c1, if_pos c2, ih]
  | case5 r p a r' p' b c1 c2 ih =>
    unfold mergeA
    rw [if_neg c1, if_neg c2]
    unfold foldBoth
    cases both s r p p' with
    | inl x => rfl
    | inr s => exact ih s

theorem common_mem {a b : Regions} (ha : Valid a) (hb : Valid b) (r : BitVec 32) (p p' : Paths) :
    (r, p, p') ∈ common a b ↔ (r, p) ∈ a ∧ (r, p') ∈ b := by
  fun_induction common a b with
  | case1 b => simp
  | case2 e a => simp
  | case3 r0 p0 a r' p0' b c ih =>
    rw [ih ha.tail hb]
    simp only [List.mem_cons]
    constructor
    · rintro ⟨h1, h2⟩; exact ⟨Or.inr h1, h2⟩
    · rintro ⟨h1 | h1, h2⟩
      · exfalso
        have e1 : r = r0 := congrArg Prod.fst h1
        rcases h2 with h2 | h2
        · have e2 : r = r' := congrArg Prod.fst h2
          subst e1; subst e2; omega
        · have := hb.head_lt h2
          simp only at this
          subst e1; omega
      · exact ⟨h1, h2⟩
  | case4 r0 p0 a r' p0' b c1 c2 ih =>
    rw [ih ha hb.tail]
    simp only [List.mem_cons]
    constructor
    · rintro ⟨h1, h2⟩; exact ⟨h1, Or.inr h2⟩
    · rintro ⟨h1, h2 | h2⟩
      · exfalso
        have e1 : r = r' := congrArg Prod.fst h2
        rcases h1 with h1 | h1
        · have e2 : r = r0 := congrArg Prod.fst h1
          subst e1; subst e2; omega
        · have := ha.head_lt h1
          simp only at this
          subst e1; omega
      · exact ⟨h1, h2⟩
  | case5 r0 p0 a r' p0' b c1 c2 ih =>
    have hr : r0 = r' := rank_inj (by omega)
    subst hr
    rw [List.mem_cons, ih ha.tail hb.tail]
    simp only [List.mem_cons, Prod.mk.injEq]
    constructor
    · rintro (⟨h1, h2, h3⟩ | ⟨h1, h2⟩)
      · exact ⟨Or.inl ⟨h1, h2⟩, Or.inl ⟨h1, h3⟩⟩
      · exact ⟨Or.inr h1, Or.inr h2⟩
    · rintro ⟨⟨h1, h2⟩ | h1, ⟨h3, h4⟩ | h3⟩
      · exact Or.inl ⟨h1, h2, h4⟩
      · exfalso; have := hb.head_lt h3; simp only at this; subst h1; omega
      · exfalso; have := ha.head_lt h1; simp only at this; subst h3; omega
      · exact Or.inr ⟨h1, h3⟩

theorem common_sorted {a b : Regions} (ha : Valid a) (hb : Valid b) :
    (common a b).Pairwise (fun x y => rank x.1 < rank y.1) := by
  fun_induction common a b with
  | case1 b => exact List.Pairwise.nil
  | case2 e a => exact List.Pairwise.nil
  | case3 r0 p0 a r' p0' b c ih => exact ih ha.tail hb
  | case4 r0 p0 a r' p0' b c1 c2 ih => exact ih ha hb.tail
  | case5 r0 p0 a r' p0' b c1 c2 ih =>
    refine List.pairwise_cons.mpr ⟨fun x hx => ?_, ih ha.tail hb.tail⟩
    obtain ⟨r, p, p'⟩ := x
    exact ha.head_lt (((common_mem ha.tail hb.tail r p p').mp hx).1)

end Verif.Lifetime
