import Verif.LifetimeProps
/-!
# C55: field, dereference and join

`Lifetime_op_field`, `Lifetime_op_deref` and `Lifetime_op_join` on encoded lifetimes.
-/
namespace Verif.Lifetime
open Verif

/-- A change of the paths of every region that is divided. -/
def opA (f : Paths → Paths) (l : Regions) : Regions := l.map (fun e => (e.1, if e.2 = whole then whole else f e.2))

theorem op_enc (l : Regions) (hl : ∀ e ∈ l, ValidPaths e.2) (f : Paths → Paths) (each : Str → Str → Option Str)
    (h : ∀ e ∈ l, e.2 ≠ whole → ∀ s, each s (encPaths e.2) = some (s ++ encPaths (f e.2))) :
    Lifetime_op (encode l) each = some (encode (opA f l)) := by
  unfold Lifetime_op
  rw [Lifetime_each_enc l (fun e he => (hl e he).enc)]
  simp only [Option.bind_eq_bind, Option.bind_some]
  rw [List.foldlM_map]
  suffices ∀ s, List.foldlM (fun result (e : BitVec 32 × Paths) =>
      if (encPaths e.2 == SR_empty) = true then some (result ++ leb e.1.toNat ++ encPaths e.2)
      else each (result ++ leb e.1.toNat) (encPaths e.2)) s l = some (s ++ encode (opA f l)) by
    have := this []
    rw [List.nil_append] at this
    exact this
  intro s
  induction l generalizing s with
  | nil => simp [opA, encode]
  | cons e l ih =>
    obtain ⟨r, ps⟩ := e
    have hv := hl (r, ps) (by simp)
    have ih' := ih (fun e he => hl e (by simp [he])) (fun e he => h e (by simp [he]))
    rw [List.foldlM_cons]
    simp only [enc_beq_empty hv, decide_eq_true_eq]
    have hop : opA f ((r, ps) :: l) = (r, if ps = whole then whole else f ps) :: opA f l := rfl
    rw [hop, encode_cons]
    by_cases c : ps = whole
    · rw [if_pos c, if_pos c, Option.bind_eq_bind, Option.bind_some, ih', c]
      simp
    · rw [if_neg c, if_neg c, h (r, ps) (by simp) c, Option.bind_eq_bind, Option.bind_some, ih']
      simp

/-- The encodings of paths that are not the last of their region. -/
def encMore : Paths → Str
  | [] => []
  | p :: ps => encPath false p ++ encMore ps

theorem encPaths_append (a b : Paths) (hb : b ≠ []) : encPaths (a ++ b) = encMore a ++ encPaths b := by
  induction a with
  | nil => rfl
  | cons p a ih =>
    rw [List.cons_append]
    have : a ++ b ≠ [] := by simp [hb]
    obtain ⟨x, y, hxy⟩ := List.exists_cons_of_ne_nil this
    rw [hxy] at ih ⊢
    show encPath false p ++ encPaths (x :: y) = encPath false p ++ encMore a ++ encPaths b
    rw [ih, List.append_assoc]

theorem encMore_append (a b : Paths) : encMore (a ++ b) = encMore a ++ encMore b := by
  induction a with
  | nil => rfl
  | cons p a ih =>
    show encPath false p ++ encMore (a ++ b) = encPath false p ++ encMore a ++ encMore b
    rw [ih, List.append_assoc]

/-- A walk that replaces every path `p` by the paths `g p`. -/
theorem walk_fold (paths : Str) (F : Str → Nat × PathInfo → Str) (g : SPath → Paths) (ps : Paths) (pre : Str)
    (hpre : paths = pre ++ encPaths ps) (h0 : ps ≠ []) (hg : ∀ p ∈ ps, g p ≠ [])
    (hF : ∀ p ∈ ps, ∀ s pre' suf last, paths = pre' ++ encPath last p ++ suf →
      F s (pre'.length, infoOf pre'.length last p) = s ++ (if last then encPaths (g p) else encMore (g p))) (s : Str) :
    (infosOf pre.length ps).foldl F s = s ++ encPaths (ps.flatMap g) := by
  induction ps generalizing pre s with
  | nil => exact absurd rfl h0
  | cons p ps ih =>
    cases ps with
    | nil =>
      have := hF p (by simp) s pre [] true (by rw [hpre, List.append_nil]; rfl)
      show F s (pre.length, infoOf pre.length true p) = _
      rw [this]; simp
    | cons p' ps =>
      have e1 : encPaths (p :: p' :: ps) = encPath false p ++ encPaths (p' :: ps) := rfl
      have := hF p (by simp) s pre (encPaths (p' :: ps)) false (by rw [hpre, e1, List.append_assoc])
      show List.foldl F (F s (pre.length, infoOf pre.length false p))
        (infosOf (pre.length + (encPath false p).length) (p' :: ps)) = _
      rw [this, ← List.length_append, ih (pre ++ encPath false p) (by rw [hpre, e1, List.append_assoc]) (by simp)
        (fun q hq => hg q (by simp [hq])) (fun q hq => hF q (by simp [hq]))]
      have hne : List.flatMap g (p' :: ps) ≠ [] := by
        rw [List.flatMap_cons]; have := hg p' (by simp); simp [this]
      rw [List.flatMap_cons (x := p), encPaths_append _ _ hne, List.append_assoc]
      simp

/-- The encoding of a path, by its last step. -/
theorem encPath_snoc (last : Bool) (i : SPath) (x : SubRegion) :
    encPath last (i ++ [x]) = encHead (i ++ [x]) ++ (leb (2 * x.flatOffset) ++ leb (2 * x.flatCount + if last then 0 else 1)) := by
  obtain ⟨sr, h, e⟩ := encPath_head last (i ++ [x]) (by simp)
  rw [List.getLast?_append] at h
  simp at h
  subst h
  exact e

theorem encHead_snoc (i : SPath) (x y : SubRegion) : encHead (i ++ [x]) = encHead (i ++ [y]) := by
  induction i with
  | nil => rfl
  | cons a i ih =>
    cases i with
    | nil => rfl
    | cons b i =>
      show leb _ ++ encHead (b :: i ++ [x]) = leb _ ++ encHead (b :: i ++ [y])
      rw [ih]

theorem encHead_snoc2 (i : SPath) (x y : SubRegion) :
    encHead (i ++ [x, y]) = encHead (i ++ [x]) ++ leb (2 * x.flatOffset + 1) := by
  induction i with
  | nil => show leb _ ++ [] = [] ++ leb _; simp
  | cons a i ih =>
    cases i with
    | nil => show leb _ ++ (leb _ ++ []) = (leb _ ++ []) ++ leb _; simp
    | cons b i =>
      show leb _ ++ encHead (b :: i ++ [x, y]) = (leb _ ++ encHead (b :: i ++ [x])) ++ leb _
      rw [ih, List.append_assoc]

theorem snoc_of_valid {p : SPath} (h : ValidPath p) : ∃ i x, p = i ++ [x] := by
  have : p ≠ [] := by rintro rfl; exact h
  exact ⟨p.dropLast, p.getLast this, (List.dropLast_concat_getLast this).symm⟩

theorem valid_snoc {i : SPath} {x : SubRegion} : ValidPath (i ++ [x]) ↔
    (∀ y ∈ i, y.flatCount = 1 ∧ y.flatOffset < 2 ^ 31) ∧ 0 < x.flatCount ∧ x.flatCount < 2 ^ 31 ∧ x.flatOffset < 2 ^ 31 := by
  induction i with
  | nil => simp [ValidPath]
  | cons a i ih =>
    have : ValidPath (a :: i ++ [x]) ↔ a.flatCount = 1 ∧ a.flatOffset < 2 ^ 31 ∧ ValidPath (i ++ [x]) := by
      cases i <;> exact Iff.rfl
    rw [this, ih]
    simp only [List.mem_cons, forall_eq_or_imp]
    tauto

theorem slice_prefix (pre : Str) (i : SPath) (x : SubRegion) (last : Bool) (suf : Str) :
    slice (pre ++ encPath last (i ++ [x]) ++ suf) pre.length (pre.length + (encHead (i ++ [x])).length) = encHead (i ++ [x]) := by
  rw [encPath_snoc]
  have : ∀ (a b c d : Str), a ++ (b ++ c) ++ d = a ++ b ++ (c ++ d) := by intros; simp
  rw [this]
  exact slice_eq _ _ _

/-! ## Fields -/

/-- The part `[o, o+c)` of the last step of a path. -/
def fieldPath (c o : Nat) (p : SPath) : SPath :=
  match p.getLast? with
  | some x => p.dropLast ++ [⟨c, x.flatOffset + o⟩]
  | none => p

theorem fieldPath_snoc (c o : Nat) (i : SPath) (x : SubRegion) : fieldPath c o (i ++ [x]) = i ++ [⟨c, x.flatOffset + o⟩] := by
  unfold fieldPath
  simp

/-- The offsets stay within the range of the encoding. -/
def Fits (l : Regions) (n : Nat) : Prop :=
  ∀ e ∈ l, e.2 ≠ whole → ∀ i x, i ++ [x] ∈ e.2 → x.flatOffset + n < 2 ^ 31

theorem flatMap_single (f : SPath → SPath) (l : Paths) : l.flatMap (fun p => [f p]) = l.map f := by
  induction l with
  | nil => rfl
  | cons a l ih => simp [ih]

theorem walk_whole (ps : Paths) (h : ValidPaths ps) :
    walkPaths (encPaths ps) 0 = some (infosOf 0 ps, (encPaths ps).length) := by
  have := walkPaths_enc ps h.enc [] []
  simpa using this

theorem Lifetime_op_field_enc {l : Regions} (hl : Valid l) {c o : Nat} (hc : 0 < c ∧ c < 2 ^ 31) (hf : Fits l o) :
    Lifetime_op_field (encode l) c o = some (encode (opA (List.map (fieldPath c o)) l)) := by
  unfold Lifetime_op_field
  apply op_enc l hl.paths
  intro e he hw s
  have hv := (hl.paths e he).of_ne hw
  rw [walk_whole e.2 (hl.paths e he)]
  simp only [Option.bind_eq_bind, Option.bind_some, Option.some.injEq]
  have := walk_fold (encPaths e.2) (fun result p =>
      match p.2.path.getLast? with
      | some sr => appendSubRegion (result ++ slice (encPaths e.2) p.1 p.2.sub0) c (sr.flatOffset + o) true p.2.isLast
      | none => result) (fun p => [fieldPath c o p]) e.2 [] rfl hv.1 (by simp) ?_ s
  · rw [List.length_nil, flatMap_single] at this
    exact this
  · intro p hp s pre suf last hx
    obtain ⟨i, x, rfl⟩ := snoc_of_valid (hv.2 p hp)
    have hfit := hf e he hw i x hp
    simp only [infoOf, List.getLast?_append, List.getLast?_singleton, Option.some_or]
    rw [hx, slice_prefix, appendSub_last _ _ _ hc.2 hfit, fieldPath_snoc]
    have : ∀ b : Bool, (if b then encPaths [i ++ [⟨c, x.flatOffset + o⟩]] else encMore [i ++ [⟨c, x.flatOffset + o⟩]]) =
        encPath b (i ++ [⟨c, x.flatOffset + o⟩]) := by
      intro b; cases b
      · show encPath false _ ++ [] = _; simp
      · rfl
    rw [this, encPath_snoc, encHead_snoc i ⟨c, x.flatOffset + o⟩ x]
    simp only [List.append_assoc]

theorem fieldPath_valid {c o : Nat} {i : SPath} {x : SubRegion} (h : ValidPath (i ++ [x])) (hc : 0 < c ∧ c < 2 ^ 31)
    (hf : x.flatOffset + o < 2 ^ 31) : ValidPath (i ++ [⟨c, x.flatOffset + o⟩]) := by
  rw [valid_snoc] at h ⊢
  exact ⟨h.1, hc.1, hc.2, hf⟩

theorem opA_valid {l : Regions} (hl : Valid l) (f : Paths → Paths)
    (h : ∀ e ∈ l, e.2 ≠ whole → f e.2 ≠ [] ∧ ∀ p ∈ f e.2, ValidPath p) : Valid (opA f l) := by
  refine ⟨?_, ?_⟩
  · unfold opA
    rw [List.pairwise_map]
    exact hl.sorted
  · intro e he
    unfold opA at he
    obtain ⟨e0, he0, rfl⟩ := List.mem_map.mp he
    simp only
    by_cases c : e0.2 = whole
    · rw [if_pos c]; exact whole_valid
    · rw [if_neg c]; exact Or.inr (h e0 he0 c)

theorem opA_denotes {l : Regions} (f : Paths → Paths)
    (h : ∀ e ∈ l, e.2 ≠ whole → ∀ p ∈ f e.2, ValidPath p) (r : BitVec 32) (q : List Nat) :
    denotes (opA f l) r q ↔ ∃ ps, (r, ps) ∈ l ∧ (ps = whole ∨ (ps ≠ whole ∧ cov (f ps) q)) := by
  unfold denotes opA
  constructor
  · rintro ⟨ps, hm, h'⟩
    obtain ⟨e, he, heq⟩ := List.mem_map.mp hm
    obtain ⟨r0, p0⟩ := e
    simp only [Prod.mk.injEq] at heq
    obtain ⟨rfl, rfl⟩ := heq
    refine ⟨p0, he, ?_⟩
    by_cases c : p0 = whole
    · exact Or.inl c
    · rw [if_neg c] at h'
      rcases h' with h' | h'
      · exact absurd h' (whole_not_valid (h _ he c))
      · exact Or.inr ⟨c, h'⟩
  · rintro ⟨ps, hm, h'⟩
    refine ⟨if ps = whole then whole else f ps, List.mem_map.mpr ⟨(r, ps), hm, rfl⟩, ?_⟩
    rcases h' with h' | ⟨c, h'⟩
    · rw [if_pos h']; exact Or.inl rfl
    · rw [if_neg c]; exact Or.inr h'

/-- `Lifetime_op_field` on a lifetime gives, for every path, the part `[o, o+c)` of its last step; a region that is not
divided stays as it is. -/
theorem C55_field {l : Regions} (hl : Valid l) {c o : Nat} (hc : 0 < c ∧ c < 2 ^ 31) (hf : Fits l o) :
    ∃ l', Lifetime_op_field (encode l) c o = some (encode l') ∧ Valid l' ∧
      ∀ r q, denotes l' r q ↔ ∃ ps, (r, ps) ∈ l ∧
        (ps = whole ∨ (ps ≠ whole ∧ ∃ i x, i ++ [x] ∈ ps ∧ covers (i ++ [⟨c, x.flatOffset + o⟩]) q)) := by
  have hval : ∀ e ∈ l, e.2 ≠ whole → ∀ p ∈ List.map (fieldPath c o) e.2, ValidPath p := by
    intro e he hw p hp
    obtain ⟨p0, hp0, rfl⟩ := List.mem_map.mp hp
    obtain ⟨i, x, rfl⟩ := snoc_of_valid (((hl.paths e he).of_ne hw).2 p0 hp0)
    rw [fieldPath_snoc]
    exact fieldPath_valid (((hl.paths e he).of_ne hw).2 _ hp0) hc (hf e he hw i x hp0)
  refine ⟨_, Lifetime_op_field_enc hl hc hf, opA_valid hl _ (fun e he hw => ⟨?_, hval e he hw⟩), fun r q => ?_⟩
  · simp [((hl.paths e he).of_ne hw).1]
  · rw [opA_denotes _ hval]
    apply exists_congr
    intro ps
    apply and_congr_right
    intro hm
    apply or_congr_right
    apply and_congr_right
    intro hw
    unfold cov
    constructor
    · rintro ⟨p, hp, h⟩
      obtain ⟨p0, hp0, rfl⟩ := List.mem_map.mp hp
      obtain ⟨i, x, rfl⟩ := snoc_of_valid (((hl.paths _ hm).of_ne hw).2 p0 hp0)
      rw [fieldPath_snoc] at h
      exact ⟨i, x, hp0, h⟩
    · rintro ⟨i, x, hp, h⟩
      exact ⟨fieldPath c o (i ++ [x]), List.mem_map.mpr ⟨_, hp, rfl⟩, by rw [fieldPath_snoc]; exact h⟩

theorem covers_last_mono {i : SPath} {x y : SubRegion} (h1 : x.flatOffset ≤ y.flatOffset)
    (h2 : y.flatOffset + y.flatCount ≤ x.flatOffset + x.flatCount) {q : List Nat} (h : covers (i ++ [y]) q) :
    covers (i ++ [x]) q := by
  rw [covers_append] at h ⊢
  refine ⟨h.1, ?_⟩
  have h' := h.2
  cases hq : q.drop i.length with
  | nil => rw [hq] at h'; exact h'.elim
  | cons z q' =>
    rw [hq] at h'
    obtain ⟨a, b, _⟩ := h'
    exact ⟨by omega, by omega, trivial⟩

/-- A field of a value lies in the storage of the value. -/
theorem C55_field_within {l : Regions} (hl : Valid l) {c o : Nat} (hc : 0 < c ∧ c < 2 ^ 31) (hf : Fits l o)
    (hin : ∀ e ∈ l, e.2 ≠ whole → ∀ i x, i ++ [x] ∈ e.2 → o + c ≤ x.flatCount) :
    ∃ l', Lifetime_op_field (encode l) c o = some (encode l') ∧ Valid l' ∧ ∀ r q, denotes l' r q → denotes l r q := by
  obtain ⟨l', h1, h2, h3⟩ := C55_field hl hc hf
  refine ⟨l', h1, h2, fun r q h => ?_⟩
  obtain ⟨ps, hm, h⟩ := (h3 r q).mp h
  refine ⟨ps, hm, ?_⟩
  rcases h with h | ⟨hw, i, x, hp, h⟩
  · exact Or.inl h
  · have := hin _ hm hw i x hp
    exact Or.inr ⟨_, hp, covers_last_mono (y := ⟨c, x.flatOffset + o⟩) (by simp) (by simp only; omega) h⟩

/-- Two disjoint fields of a value do not overlap, if the value has no two paths (and is not an undivided region). -/
theorem C55_fields_disjoint {r : BitVec 32} {i : SPath} {x : SubRegion} {c o c' o' : Nat} (hp : ValidPath (i ++ [x]))
    (hc : 0 < c ∧ c < 2 ^ 31) (hc' : 0 < c' ∧ c' < 2 ^ 31) (hf : x.flatOffset + o < 2 ^ 31) (hf' : x.flatOffset + o' < 2 ^ 31)
    (hd : o + c ≤ o' ∨ o' + c' ≤ o) :
    ∃ a b, Lifetime_op_field (encode [(r, [i ++ [x]])]) c o = some a ∧ Lifetime_op_field (encode [(r, [i ++ [x]])]) c' o' = some b ∧
      Lifetime_hasInter a b = some false := by
  have hw : ([i ++ [x]] : Paths) ≠ whole := whole_not_valid (by simpa using hp)
  have hl : Valid [(r, [i ++ [x]])] := valid_cons (Or.inr ⟨by simp, by simpa using hp⟩) (by simp) valid_nil
  have fit : ∀ n, x.flatOffset + n < 2 ^ 31 → Fits [(r, [i ++ [x]])] n := by
    intro n hn e he _ j y hj
    rw [List.mem_singleton] at he
    subst he
    rw [List.mem_singleton] at hj
    have : y = x := by
      have := congrArg List.getLast? hj
      simpa using this
    rw [this]; exact hn
  obtain ⟨a, h1, h2, h3⟩ := C55_field hl hc (fit o hf)
  obtain ⟨b, k1, k2, k3⟩ := C55_field hl hc' (fit o' hf')
  refine ⟨_, _, h1, k1, ?_⟩
  obtain ⟨y, hy, hiff⟩ := C31_hasInter h2 k2
  rw [hy]
  congr 1
  rw [Bool.eq_false_iff]
  intro ht
  obtain ⟨r', q, ha, hb⟩ := hiff.mp ht
  obtain ⟨ps, hm, ha⟩ := (h3 r' q).mp ha
  obtain ⟨ps', hm', hb⟩ := (k3 r' q).mp hb
  rw [List.mem_singleton, Prod.mk.injEq] at hm hm'
  obtain ⟨_, rfl⟩ := hm
  obtain ⟨_, rfl⟩ := hm'
  rcases ha with ha | ⟨_, j, z, hj, ha⟩
  · exact hw ha
  rcases hb with hb | ⟨_, j', z', hj', hb⟩
  · exact hw hb
  rw [List.mem_singleton] at hj hj'
  have inj : ∀ (u v : SPath) (s t : SubRegion), u ++ [s] = v ++ [t] → u = v ∧ s = t := by
    intro u v s t h
    have h1 := congrArg List.dropLast h
    have h2 := congrArg List.getLast? h
    simp at h1 h2
    exact ⟨h1, h2⟩
  obtain ⟨rfl, rfl⟩ := inj _ _ _ _ hj
  obtain ⟨rfl, rfl⟩ := inj _ _ _ _ hj'
  rw [covers_append] at ha hb
  have ha := ha.2
  have hb := hb.2
  cases hq : q.drop j'.length with
  | nil => rw [hq] at ha; exact ha.elim
  | cons z q' =>
    rw [hq] at ha hb
    obtain ⟨a1, a2, _⟩ := ha
    obtain ⟨b1, b2, _⟩ := hb
    simp only at a1 a2 b1 b2
    omega

/-- A field of a field is a field, to the byte. -/
theorem C55_field_field {l : Regions} (hl : Valid l) {c o c' o' : Nat} (hc : 0 < c ∧ c < 2 ^ 31) (hc' : 0 < c' ∧ c' < 2 ^ 31)
    (hf : Fits l (o + o')) :
    (Lifetime_op_field (encode l) c o >>= fun a => Lifetime_op_field a c' o') = Lifetime_op_field (encode l) c' (o + o') := by
  have hf1 : Fits l o := fun e he hw i x h => by have := hf e he hw i x h; omega
  have hval : ∀ e ∈ l, e.2 ≠ whole → ∀ p ∈ List.map (fieldPath c o) e.2, ValidPath p := by
    intro e he hw p hp
    obtain ⟨p0, hp0, rfl⟩ := List.mem_map.mp hp
    obtain ⟨i, x, rfl⟩ := snoc_of_valid (((hl.paths e he).of_ne hw).2 p0 hp0)
    rw [fieldPath_snoc]
    exact fieldPath_valid (((hl.paths e he).of_ne hw).2 _ hp0) hc (hf1 e he hw i x hp0)
  have hv1 : Valid (opA (List.map (fieldPath c o)) l) :=
    opA_valid hl _ (fun e he hw => ⟨by simp [((hl.paths e he).of_ne hw).1], hval e he hw⟩)
  rw [Lifetime_op_field_enc hl hc hf1, Lifetime_op_field_enc hl hc' hf, Option.bind_eq_bind, Option.bind_some]
  rw [Lifetime_op_field_enc hv1 hc']
  · congr 2
    unfold opA
    rw [List.map_map]
    apply List.map_congr_left
    intro e he
    simp only [Function.comp_apply, Prod.mk.injEq, true_and]
    by_cases w : e.2 = whole
    · simp [w]
    · rw [if_neg w, if_neg w, if_neg (whole_not_valid (hval e he w)), List.map_map]
      apply List.map_congr_left
      intro p hp
      obtain ⟨i, x, rfl⟩ := snoc_of_valid (((hl.paths e he).of_ne w).2 p hp)
      simp only [Function.comp_apply, fieldPath_snoc, Nat.add_assoc]
  · intro e he hw i x hx
    unfold opA at he
    obtain ⟨e0, he0, rfl⟩ := List.mem_map.mp he
    simp only at hw hx
    by_cases w : e0.2 = whole
    · rw [if_pos w] at hw; exact absurd rfl hw
    · rw [if_neg w] at hx
      obtain ⟨p0, hp0, hp⟩ := List.mem_map.mp hx
      obtain ⟨j, y, rfl⟩ := snoc_of_valid (((hl.paths e0 he0).of_ne w).2 p0 hp0)
      rw [fieldPath_snoc] at hp
      have h2 := congrArg List.getLast? hp
      simp only [List.getLast?_append, List.getLast?_singleton, Option.some_or, Option.some.injEq] at h2
      rw [← h2]
      have := hf e0 he0 w j y hp0
      simp only
      omega

/-! ## Dereference -/

/-- Following the reference in the last step of a path to storage of `c` flat fields. -/
def derefPath (c : Nat) (p : SPath) : SPath := p ++ [⟨c, 0⟩]

/-- Every path ends in a single field. -/
def Single (l : Regions) : Prop := ∀ e ∈ l, e.2 ≠ whole → ∀ i x, i ++ [x] ∈ e.2 → x.flatCount = 1

theorem Lifetime_op_deref_enc {l : Regions} (hl : Valid l) {c : Nat} (hc : 0 < c ∧ c < 2 ^ 31) :
    Lifetime_op_deref (encode l) c = some (encode (opA (List.map (derefPath c)) l)) := by
  unfold Lifetime_op_deref
  apply op_enc l hl.paths
  intro e he hw s
  have hv := (hl.paths e he).of_ne hw
  rw [walk_whole e.2 (hl.paths e he)]
  simp only [Option.bind_eq_bind, Option.bind_some, Option.some.injEq]
  have := walk_fold (encPaths e.2) (fun result p =>
      match p.2.path.getLast? with
      | some sr =>
        appendSubRegion (appendSubRegion (result ++ slice (encPaths e.2) p.1 p.2.sub0) sr.flatCount sr.flatOffset false p.2.isLast)
          c 0 true p.2.isLast
      | none => result) (fun p => [derefPath c p]) e.2 [] rfl hv.1 (by simp) ?_ s
  · rw [List.length_nil, flatMap_single] at this
    exact this
  · intro p hp s pre suf last hx
    obtain ⟨i, x, rfl⟩ := snoc_of_valid (hv.2 p hp)
    have hx31 := (valid_snoc.mp (hv.2 _ hp)).2.2.2
    simp only [infoOf, List.getLast?_append, List.getLast?_singleton, Option.some_or]
    rw [hx, slice_prefix, appendSub_last _ _ _ hc.2 (by omega), appendSub_mid _ _ _ hx31]
    have : ∀ b : Bool, (if b then encPaths [derefPath c (i ++ [x])] else encMore [derefPath c (i ++ [x])]) =
        encPath b (derefPath c (i ++ [x])) := by
      intro b; cases b
      · show encPath false _ ++ [] = _; simp
      · rfl
    rw [this]
    unfold derefPath
    rw [encPath_snoc, show i ++ [x] ++ [(⟨c, 0⟩ : SubRegion)] = i ++ [x, ⟨c, 0⟩] by simp, encHead_snoc2]
    simp only [List.append_assoc]

/-- `Lifetime_op_deref` gives the storage of `c` flat fields that the references at the ends of the paths refer to. -/
theorem C55_deref {l : Regions} (hl : Valid l) (hs : Single l) {c : Nat} (hc : 0 < c ∧ c < 2 ^ 31) :
    ∃ l', Lifetime_op_deref (encode l) c = some (encode l') ∧ Valid l' ∧
      ∀ r q, denotes l' r q ↔ ∃ ps, (r, ps) ∈ l ∧
        (ps = whole ∨ (ps ≠ whole ∧ ∃ p ∈ ps, covers (p ++ [⟨c, 0⟩]) q)) := by
  have hval : ∀ e ∈ l, e.2 ≠ whole → ∀ p ∈ List.map (derefPath c) e.2, ValidPath p := by
    intro e he hw p hp
    obtain ⟨p0, hp0, rfl⟩ := List.mem_map.mp hp
    have hv := ((hl.paths e he).of_ne hw).2 p0 hp0
    obtain ⟨i, x, rfl⟩ := snoc_of_valid hv
    unfold derefPath
    have hv := valid_snoc.mp hv
    rw [valid_snoc]
    refine ⟨fun y hy => ?_, hc.1, hc.2, by simp⟩
    rcases List.mem_append.mp hy with h | h
    · exact hv.1 y h
    · rw [List.mem_singleton] at h
      subst h
      exact ⟨hs e he hw i y hp0, hv.2.2.2⟩
  refine ⟨_, Lifetime_op_deref_enc hl hc, opA_valid hl _ (fun e he hw => ⟨?_, hval e he hw⟩), fun r q => ?_⟩
  · simp [((hl.paths e he).of_ne hw).1]
  · rw [opA_denotes _ hval]
    apply exists_congr
    intro ps
    apply and_congr_right
    intro hm
    apply or_congr_right
    apply and_congr_right
    intro hw
    unfold cov derefPath
    simp only [List.mem_map, exists_exists_and_eq_and]

/-- What a value refers to is reached through the value: the places of a dereference extend places of the value. -/
theorem C55_deref_within {l : Regions} (hl : Valid l) (hs : Single l) {c : Nat} (hc : 0 < c ∧ c < 2 ^ 31) :
    ∃ l', Lifetime_op_deref (encode l) c = some (encode l') ∧ Valid l' ∧ ∀ r q, denotes l' r q → denotes l r q := by
  obtain ⟨l', h1, h2, h3⟩ := C55_deref hl hs hc
  refine ⟨l', h1, h2, fun r q h => ?_⟩
  obtain ⟨ps, hm, h⟩ := (h3 r q).mp h
  refine ⟨ps, hm, ?_⟩
  rcases h with h | ⟨hw, p, hp, h⟩
  · exact Or.inl h
  · exact Or.inr ⟨p, hp, ((covers_append p _ q).mp h).1⟩

/-! ## Join -/

/-- The path `d` within the storage that the path `p` leads to: the first step of `d` is taken from where the last step of
`p` begins. -/
def joinPath (p : SPath) (d : SPath) : SPath :=
  match p.getLast?, d with
  | some x, y :: rest => p.dropLast ++ ⟨y.flatCount, y.flatOffset + x.flatOffset⟩ :: rest
  | _, _ => p

theorem joinPath_snoc (i : SPath) (x y : SubRegion) (rest : SPath) :
    joinPath (i ++ [x]) (y :: rest) = i ++ ⟨y.flatCount, y.flatOffset + x.flatOffset⟩ :: rest := by
  unfold joinPath
  simp

/-- The first step of a path of the child, counted from the parent, stays within the range of the encoding. -/
def FitsJoin (l : Regions) (cs : Paths) : Prop :=
  ∀ e ∈ l, e.2 ≠ whole → ∀ i x, i ++ [x] ∈ e.2 → ∀ y rest, y :: rest ∈ cs → y.flatOffset + x.flatOffset < 2 ^ 31

theorem joinChild_rest (raw : Str) (off : Nat) (last : Bool) (p : SPath) (h : EncPath p) (s : Str) :
    joinChild raw off last s false p = s ++ encPath last p := by
  induction p generalizing s with
  | nil => exact h.elim
  | cons a p ih =>
    unfold joinChild
    simp only [Bool.false_eq_true, if_false]
    cases p with
    | nil =>
      show joinChild _ _ _ (appendSubRegion s _ _ true last) false [] = _
      unfold joinChild
      rw [appendSub_last _ _ _ h.1 h.2, List.append_assoc]
      rfl
    | cons b p =>
      show joinChild _ _ _ (appendSubRegion s _ _ false last) false (b :: p) = s ++ (leb _ ++ encPath last (b :: p))
      rw [appendSub_mid _ _ _ h.2.1, ih h.2.2, List.append_assoc]

theorem joinChild_enc (i : SPath) (x y : SubRegion) (rest : SPath) (last : Bool) (h : EncPath (y :: rest))
    (hf : y.flatOffset + x.flatOffset < 2 ^ 31) (s : Str) :
    joinChild (encHead (i ++ [x])) x.flatOffset last s true (y :: rest) =
      s ++ encPath last (i ++ ⟨y.flatCount, y.flatOffset + x.flatOffset⟩ :: rest) := by
  have hd : encPath last (i ++ ⟨y.flatCount, y.flatOffset + x.flatOffset⟩ :: rest) =
      encHead (i ++ [x]) ++ encPath last (⟨y.flatCount, y.flatOffset + x.flatOffset⟩ :: rest) := by
    induction i with
    | nil => rfl
    | cons a i ih =>
      cases i with
      | nil => show leb _ ++ encPath last (_ :: rest) = (leb _ ++ []) ++ _; simp
      | cons b i =>
        show leb _ ++ encPath last (b :: i ++ _ :: rest) = (leb _ ++ encHead (b :: i ++ [x])) ++ _
        rw [ih, List.append_assoc]
  rw [hd]
  unfold joinChild
  simp only [if_true]
  cases rest with
  | nil =>
    show joinChild _ _ _ (appendSubRegion _ _ _ true last) false [] = _
    unfold joinChild
    rw [appendSub_last _ _ _ h.1 hf, List.append_assoc, List.append_assoc]
    rfl
  | cons b rest =>
    show joinChild _ _ _ (appendSubRegion _ _ _ false last) false (b :: rest) =
      s ++ (encHead (i ++ [x]) ++ (leb _ ++ encPath last (b :: rest)))
    rw [appendSub_mid _ _ _ hf, joinChild_rest _ _ _ _ h.2.2]
    simp only [List.append_assoc]

theorem join_fold (i : SPath) (x : SubRegion) (last : Bool) (cs : Paths) (o : Nat) (h0 : cs ≠ [])
    (h : ∀ d ∈ cs, EncPath d) (hf : ∀ y rest, y :: rest ∈ cs → y.flatOffset + x.flatOffset < 2 ^ 31) (s : Str) :
    (infosOf o cs).foldl (fun result c =>
      joinChild (encHead (i ++ [x])) x.flatOffset (last && c.2.isLast) result true c.2.path) s =
      s ++ (if last then encPaths (cs.map (joinPath (i ++ [x]))) else encMore (cs.map (joinPath (i ++ [x])))) := by
  induction cs generalizing o s with
  | nil => exact absurd rfl h0
  | cons d cs ih =>
    obtain ⟨y, rest, rfl⟩ : ∃ y rest, d = y :: rest := by
      cases d with
      | nil => exact (h [] (by simp)).elim
      | cons y rest => exact ⟨y, rest, rfl⟩
    have hd := h _ (List.mem_cons_self ..)
    have hfd := hf y rest (by simp)
    cases cs with
    | nil =>
      show joinChild _ _ (last && true) s true (y :: rest) = _
      rw [Bool.and_true, joinChild_enc i x y rest last hd hfd, List.map_cons, List.map_nil, joinPath_snoc]
      cases last
      · show _ = s ++ (encPath false _ ++ []); simp
      · rfl
    | cons d' cs =>
      show List.foldl _ (joinChild _ _ (last && false) s true (y :: rest)) (infosOf _ (d' :: cs)) = _
      rw [Bool.and_false, joinChild_enc i x y rest false hd hfd, ih _ (by simp) (fun d hd => h d (by simp [hd]))
        (fun y r hy => hf y r (by simp [hy])), List.map_cons (a := y :: rest), joinPath_snoc, List.append_assoc]
      cases last
      · rfl
      · rfl

theorem Lifetime_op_join_enc {l : Regions} (hl : Valid l) {cs : Paths} (hcs : cs ≠ [] ∧ ∀ d ∈ cs, ValidPath d)
    (hf : FitsJoin l cs) :
    Lifetime_op_join (encode l) (encPaths cs) = some (encode (opA (List.flatMap (fun p => cs.map (joinPath p))) l)) := by
  have hcv : ValidPaths cs := Or.inr hcs
  unfold Lifetime_op_join
  apply op_enc l hl.paths
  intro e he hw s
  have hv := (hl.paths e he).of_ne hw
  rw [walk_whole e.2 (hl.paths e he), walk_whole cs hcv]
  simp only [Option.bind_eq_bind, Option.bind_some, Option.some.injEq]
  have := walk_fold (encPaths e.2) (fun result p =>
      match p.2.path.getLast? with
      | some sr => (infosOf 0 cs).foldl (fun result c =>
          joinChild (slice (encPaths e.2) p.1 p.2.sub0) sr.flatOffset (p.2.isLast && c.2.isLast) result true c.2.path) result
      | none => result) (fun p => cs.map (joinPath p)) e.2 [] rfl hv.1 (fun p hp => by simp [hcs.1]) ?_ s
  · rw [List.length_nil] at this
    exact this
  · intro p hp s pre suf last hx
    obtain ⟨i, x, rfl⟩ := snoc_of_valid (hv.2 p hp)
    simp only [infoOf, List.getLast?_append, List.getLast?_singleton, Option.some_or]
    rw [hx, slice_prefix]
    exact join_fold i x last cs 0 hcs.1 (fun d hd => (hcs.2 d hd).enc) (fun y r hy => hf e he hw i x hp y r hy) s

theorem joinPath_valid {i : SPath} {x y : SubRegion} {rest : SPath} (hp : ValidPath (i ++ [x])) (hd : ValidPath (y :: rest))
    (hf : y.flatOffset + x.flatOffset < 2 ^ 31) :
    ValidPath (i ++ ⟨y.flatCount, y.flatOffset + x.flatOffset⟩ :: rest) := by
  have h1 := (valid_snoc.mp hp).1
  have h2 : ValidPath (⟨y.flatCount, y.flatOffset + x.flatOffset⟩ :: rest) := by
    cases rest with
    | nil => exact ⟨hd.1, hd.2.1, hf⟩
    | cons b rest => exact ⟨hd.1, hf, hd.2.2⟩
  clear hp
  induction i with
  | nil => exact h2
  | cons a i ih =>
    have := ih (fun z hz => h1 z (by simp [hz]))
    have ha := h1 a (by simp)
    cases i with
    | nil => exact ⟨ha.1, ha.2, this⟩
    | cons b i => exact ⟨ha.1, ha.2, this⟩

theorem join_all_valid {l : Regions} (hl : Valid l) {cs : Paths} (hcs : cs ≠ [] ∧ ∀ d ∈ cs, ValidPath d)
    (hf : FitsJoin l cs) (e : BitVec 32 × Paths) (he : e ∈ l) (hw : e.2 ≠ whole) :
    ∀ p ∈ List.flatMap (fun p => cs.map (joinPath p)) e.2, ValidPath p := by
  intro p hp
  obtain ⟨p0, hp0, h⟩ := List.mem_flatMap.mp hp
  obtain ⟨d, hd, rfl⟩ := List.mem_map.mp h
  have hv := ((hl.paths e he).of_ne hw).2 p0 hp0
  have hdv := hcs.2 d hd
  obtain ⟨i, x, rfl⟩ := snoc_of_valid hv
  cases d with
  | nil => exact hdv.elim
  | cons y rest =>
    rw [joinPath_snoc]
    exact joinPath_valid hv hdv (hf e he hw i x hp0 y rest hd)

/-- `Lifetime_op_join` gives the storage of the child within the parent: for every path `i.x` of the parent and every path
`y.rest` of the child the path `i.y'.rest`, where `y'` is `y` counted from the beginning of `x`. -/
theorem C55_join {l : Regions} (hl : Valid l) {cs : Paths} (hcs : cs ≠ [] ∧ ∀ d ∈ cs, ValidPath d) (hf : FitsJoin l cs) :
    ∃ l', Lifetime_op_join (encode l) (encPaths cs) = some (encode l') ∧ Valid l' ∧
      ∀ r q, denotes l' r q ↔ ∃ ps, (r, ps) ∈ l ∧ (ps = whole ∨ (ps ≠ whole ∧
        ∃ i x, i ++ [x] ∈ ps ∧ ∃ y rest, y :: rest ∈ cs ∧
          covers (i ++ ⟨y.flatCount, y.flatOffset + x.flatOffset⟩ :: rest) q)) := by
  have hval := join_all_valid hl hcs hf
  refine ⟨_, Lifetime_op_join_enc hl hcs hf, opA_valid hl _ (fun e he hw => ⟨?_, hval e he hw⟩), fun r q => ?_⟩
  · obtain ⟨p, hp⟩ := List.exists_mem_of_ne_nil _ ((hl.paths e he).of_ne hw).1
    obtain ⟨d, hd⟩ := List.exists_mem_of_ne_nil _ hcs.1
    exact List.ne_nil_of_mem (List.mem_flatMap.mpr ⟨p, hp, List.mem_map.mpr ⟨d, hd, rfl⟩⟩)
  · rw [opA_denotes _ hval]
    apply exists_congr
    intro ps
    apply and_congr_right
    intro hm
    apply or_congr_right
    apply and_congr_right
    intro hw
    unfold cov
    constructor
    · rintro ⟨p, hp, h⟩
      obtain ⟨p0, hp0, h'⟩ := List.mem_flatMap.mp hp
      obtain ⟨d, hd, rfl⟩ := List.mem_map.mp h'
      obtain ⟨i, x, rfl⟩ := snoc_of_valid (((hl.paths _ hm).of_ne hw).2 p0 hp0)
      cases d with
      | nil => exact (hcs.2 [] hd).elim
      | cons y rest =>
        rw [joinPath_snoc] at h
        exact ⟨i, x, hp0, y, rest, hd, h⟩
    · rintro ⟨i, x, hp, y, rest, hd, h⟩
      exact ⟨joinPath (i ++ [x]) (y :: rest), List.mem_flatMap.mpr ⟨_, hp, List.mem_map.mpr ⟨_, hd, rfl⟩⟩,
        by rw [joinPath_snoc]; exact h⟩

/-- The child stays in the storage of the parent, when its first steps lie in the last steps of the parent. -/
theorem C55_join_within {l : Regions} (hl : Valid l) {cs : Paths} (hcs : cs ≠ [] ∧ ∀ d ∈ cs, ValidPath d) (hf : FitsJoin l cs)
    (hin : ∀ e ∈ l, e.2 ≠ whole → ∀ i x, i ++ [x] ∈ e.2 → ∀ y rest, y :: rest ∈ cs → y.flatOffset + y.flatCount ≤ x.flatCount) :
    ∃ l', Lifetime_op_join (encode l) (encPaths cs) = some (encode l') ∧ Valid l' ∧ ∀ r q, denotes l' r q → denotes l r q := by
  obtain ⟨l', h1, h2, h3⟩ := C55_join hl hcs hf
  refine ⟨l', h1, h2, fun r q h => ?_⟩
  obtain ⟨ps, hm, h⟩ := (h3 r q).mp h
  refine ⟨ps, hm, ?_⟩
  rcases h with h | ⟨hw, i, x, hp, y, rest, hd, h⟩
  · exact Or.inl h
  · have := hin _ hm hw i x hp y rest hd
    refine Or.inr ⟨_, hp, ?_⟩
    have e : i ++ (⟨y.flatCount, y.flatOffset + x.flatOffset⟩ : SubRegion) :: rest =
        (i ++ [⟨y.flatCount, y.flatOffset + x.flatOffset⟩]) ++ rest := by simp
    rw [e, covers_append] at h
    exact covers_last_mono (by simp) (by simp only; omega) h.1

/-- Joining a single range is taking a field, to the byte. -/
theorem C55_join_field {l : Regions} (hl : Valid l) {c o : Nat} (hc : 0 < c ∧ c < 2 ^ 31) (ho : o < 2 ^ 31) (hf : Fits l o) :
    Lifetime_op_join (encode l) (encPaths [[⟨c, o⟩]]) = Lifetime_op_field (encode l) c o := by
  rw [Lifetime_op_field_enc hl hc hf, Lifetime_op_join_enc hl]
  · congr 2
    unfold opA
    apply List.map_congr_left
    intro e he
    by_cases w : e.2 = whole
    · simp [w]
    · rw [if_neg w, if_neg w]
      congr 1
      have : ∀ ps : Paths, (∀ p ∈ ps, ValidPath p) →
          List.flatMap (fun p => List.map (joinPath p) [[⟨c, o⟩]]) ps = List.map (fieldPath c o) ps := by
        intro ps
        induction ps with
        | nil => intro _; rfl
        | cons p ps ih =>
          intro h
          rw [List.flatMap_cons, ih (fun q hq => h q (by simp [hq])), List.map_cons, List.map_cons, List.map_nil]
          obtain ⟨i, x, rfl⟩ := snoc_of_valid (h p (by simp))
          rw [joinPath_snoc, fieldPath_snoc, Nat.add_comm o]
          rfl
      exact this e.2 ((hl.paths e he).of_ne w).2
  · refine ⟨by simp, fun d hd => ?_⟩
    rw [List.mem_singleton] at hd
    subst hd
    exact ⟨hc.1, hc.2, ho⟩
  · intro e he hw i x hx y rest hy
    rw [List.mem_singleton] at hy
    cases hy
    have := hf e he hw i x hx
    simp only
    omega

/-- Field 2..3 of local 3, and what field 0 of that part refers to. -/
example : Lifetime_op_field [12#8, 0#8, 8#8, 1#8, 0#8, 0#8] 2 2 = some [12#8, 4#8, 4#8, 1#8, 0#8, 0#8] := by decide +kernel
example : Lifetime_op_deref [12#8, 4#8, 2#8] 3 = some [12#8, 5#8, 0#8, 6#8] := by decide +kernel
example : Lifetime_op_join [12#8, 4#8, 4#8] [0#8, 3#8, 3#8, 2#8, 2#8] = some [12#8, 4#8, 3#8, 7#8, 2#8, 2#8] := by decide +kernel

example : ∃ l c o, Valid l ∧ 0 < c ∧ c < 2 ^ 31 ∧ Fits l o ∧ l = sampleA ∧ o = 7 := by
  refine ⟨sampleA, 1, 7, sampleA_valid, by decide, by decide, ?_, rfl, rfl⟩
  intro e he hw i x hx
  simp only [sampleA, List.mem_cons, List.not_mem_nil, or_false] at he
  rcases he with rfl | rfl
  · simp only [List.mem_cons, List.not_mem_nil, or_false] at hx
    rcases hx with hx | hx
    · have := congrArg List.getLast? hx
      simp at this
      subst this; decide
    · have := congrArg List.getLast? hx
      simp at this
      subst this; decide
  · exact absurd rfl hw

end Verif.Lifetime
