import Verif.LifetimeUnion
/-!
# C30 and C31: lifetimes round-trip, their union is a union, and the overlap test is exact

The lifetimes are the byte strings `encode l` of well-formed `l` (`LifetimeSpec.lean`); `denotes l r q` says that the place
`q` of region `r` belongs to `l`.
-/
namespace Verif.Lifetime
open Verif

/-! ## Encoding -/

/-- Reading back the paths that were written, and writing back the paths that were read. -/
theorem C30_paths_roundtrip {ps : Paths} (h : ValidPaths ps) :
    appendPaths [] ps = encPaths ps ∧ parsePaths (appendPaths [] ps) = some ps ∧
      (parsePaths (encPaths ps)).map (appendPaths []) = some (encPaths ps) := by
  have e : appendPaths [] ps = encPaths ps := by
    rw [appendPaths_eq ps h.enc.2, List.nil_append]
  refine ⟨e, ?_, ?_⟩
  · rw [e, parsePaths_enc ps h.enc]
  · rw [parsePaths_enc ps h.enc, Option.map_some, e]

/-- Reading a lifetime gives its regions in order, each with the bytes of its number and of its paths; written one after
the other they are the lifetime again. -/
theorem C30_roundtrip {l : Regions} (h : Valid l) :
    ∃ parts, Lifetime_each (encode l) = some parts ∧ parts.map (fun p => p.1) = l.map (fun e => e.1) ∧
      parts.map (fun p => parsePaths p.2.2) = l.map (fun e => some e.2) ∧
      (parts.map (fun p => append7bit [] p.1 ++ p.2.2)).flatten = encode l := by
  refine ⟨_, Lifetime_each_enc l (fun e he => (h.paths e he).enc), ?_, ?_, ?_⟩
  · rw [List.map_map]; rfl
  · rw [List.map_map]
    apply List.map_congr_left
    intro e he
    exact parsePaths_enc e.2 (h.paths e he).enc
  · rw [List.map_map]
    clear h
    induction l with
    | nil => rfl
    | cons e l ih =>
      obtain ⟨r, ps⟩ := e
      rw [List.map_cons, List.flatten_cons, ih, encode_cons]
      simp [append7bit_eq]

/-- Different lifetimes have different encodings. -/
theorem C30_injective {a b : Regions} (ha : Valid a) (hb : Valid b) (h : encode a = encode b) : a = b :=
  encode_inj (fun e he => (ha.paths e he).enc) (fun e he => (hb.paths e he).enc) h

/-! ## Union -/

/-- `Lifetime_union` returns a well-formed lifetime that denotes the union. -/
theorem C30_union {a b : Regions} (ha : Valid a) (hb : Valid b) :
    ∃ c, Lifetime_union (encode a) (encode b) = some (encode c) ∧ Valid c ∧
      ∀ r q, denotes c r q ↔ denotes a r q ∨ denotes b r q :=
  ⟨_, Lifetime_union_enc ha hb, unionA_valid ha hb, unionA_denotes ha hb⟩

/-- Idempotent, to the byte. -/
theorem C30_idempotent {a : Regions} (ha : Valid a) : Lifetime_union (encode a) (encode a) = some (encode a) := by
  rw [Lifetime_union_enc ha ha, unionA_self]

/-- The empty lifetime is neutral, to the byte. -/
theorem C30_empty {a : Regions} (ha : Valid a) :
    Lifetime_union (encode a) [] = some (encode a) ∧ Lifetime_union [] (encode a) = some (encode a) := by
  have h1 := Lifetime_union_enc ha valid_nil
  have h2 := Lifetime_union_enc valid_nil ha
  rw [unionA_nil_right] at h1
  unfold unionA at h2
  exact ⟨h1, h2⟩

/-- Commutative: the same storage. -/
theorem C30_commutative {a b : Regions} (ha : Valid a) (hb : Valid b) :
    ∃ c d, Lifetime_union (encode a) (encode b) = some (encode c) ∧ Lifetime_union (encode b) (encode a) = some (encode d) ∧
      Valid c ∧ Valid d ∧ ∀ r q, denotes c r q ↔ denotes d r q := by
  refine ⟨_, _, Lifetime_union_enc ha hb, Lifetime_union_enc hb ha, unionA_valid ha hb, unionA_valid hb ha, fun r q => ?_⟩
  rw [unionA_denotes ha hb, unionA_denotes hb ha, or_comm]

/-- Associative: the same storage. -/
theorem C30_associative {a b c : Regions} (ha : Valid a) (hb : Valid b) (hc : Valid c) :
    ∃ x y, (Lifetime_union (encode a) (encode b) >>= fun ab => Lifetime_union ab (encode c)) = some (encode x) ∧
      (Lifetime_union (encode b) (encode c) >>= fun bc => Lifetime_union (encode a) bc) = some (encode y) ∧
      Valid x ∧ Valid y ∧ ∀ r q, denotes x r q ↔ denotes y r q := by
  have hab := unionA_valid ha hb
  have hbc := unionA_valid hb hc
  refine ⟨unionA (unionA a b) c, unionA a (unionA b c), ?_, ?_, unionA_valid hab hc, unionA_valid ha hbc, fun r q => ?_⟩
  · rw [Lifetime_union_enc ha hb]; exact Lifetime_union_enc hab hc
  · rw [Lifetime_union_enc hb hc]; exact Lifetime_union_enc ha hbc
  · rw [unionA_denotes hab hc, unionA_denotes ha hb, unionA_denotes ha hbc, unionA_denotes hb hc, or_assoc]

/-! ## Overlap -/

/-- The overlap of the paths of a region. -/
def overlapB (p p' : Paths) : Bool :=
  decide (p = p') || decide (p = whole) || decide (p' = whole) || p.any (fun x => p'.any (pathsOverlap x))

theorem den_some {p : Paths} (h : ValidPaths p) : ∃ q, den p q := by
  rcases h with h | ⟨h0, h⟩
  · exact ⟨[], Or.inl h⟩
  · obtain ⟨x, hx⟩ := List.exists_mem_of_ne_nil _ h0
    exact ⟨_, Or.inr ⟨x, hx, covers_some (h x hx).pos⟩⟩

theorem overlapB_iff {p p' : Paths} (h : ValidPaths p) (h' : ValidPaths p') :
    overlapB p p' = true ↔ ∃ q, den p q ∧ den p' q := by
  unfold overlapB
  by_cases c1 : p = p'
  · subst c1
    simp only [decide_true, Bool.true_or, true_iff]
    obtain ⟨q, hq⟩ := den_some h
    exact ⟨q, hq, hq⟩
  by_cases c2 : p = whole
  · simp only [c2, decide_true, Bool.true_or, Bool.or_true, true_iff]
    obtain ⟨q, hq⟩ := den_some h'
    exact ⟨q, Or.inl rfl, hq⟩
  by_cases c3 : p' = whole
  · simp only [c3, decide_true, Bool.true_or, Bool.or_true, true_iff]
    obtain ⟨q, hq⟩ := den_some h
    exact ⟨q, hq, Or.inl rfl⟩
  rw [decide_eq_false c1, decide_eq_false c2, decide_eq_false c3, Bool.false_or, Bool.false_or, Bool.false_or]
  have a := h.of_ne c2
  have b := h'.of_ne c3
  obtain ⟨x, hx, hi⟩ := Paths_hasInter_ok a.1 a.2 b.1 b.2
  unfold Paths_hasInter at hx
  rw [parsePaths_enc p h.enc, parsePaths_enc p' h'.enc] at hx
  simp only [Option.bind_eq_bind, Option.bind_some, Option.some.injEq] at hx
  subst hx
  rw [hi]
  unfold den
  constructor
  · rintro ⟨q, h1, h2⟩; exact ⟨q, Or.inr h1, Or.inr h2⟩
  · rintro ⟨q, h1 | h1, h2 | h2⟩
    · exact absurd h1 c2
    · exact absurd h1 c2
    · exact absurd h2 c3
    · exact ⟨q, h1, h2⟩

theorem enc_beq {p p' : Paths} (h : ValidPaths p) (h' : ValidPaths p') :
    (encPaths p == encPaths p') = decide (p = p') := by
  by_cases c : p = p'
  · subst c; simp
  · rw [decide_eq_false c, beq_eq_false_iff_ne]
    exact fun e => c (encPaths_inj h.enc h'.enc e)

theorem enc_beq_empty {p : Paths} (h : ValidPaths p) : (encPaths p == SR_empty) = decide (p = whole) := by
  rw [← enc_beq h whole_valid, encPaths_whole]

theorem hasInter_both (r : BitVec 32) (p p' : Paths) (h : ValidPaths p) (h' : ValidPaths p') :
    hasInterVisitors.both () (leb r.toNat) (encPaths p) (encPaths p') r =
      some (if overlapB p p' then .inl () else .inr ()) := by
  unfold hasInterVisitors overlapB
  simp only [enc_beq h h', enc_beq_empty h, enc_beq_empty h', Bool.or_eq_true, decide_eq_true_eq, Paths_hasInter]
  rw [parsePaths_enc p h.enc, parsePaths_enc p' h'.enc]
  simp only [Option.bind_eq_bind, Option.bind_some]
  by_cases c1 : p = p'
  · simp [c1]
  by_cases c2 : p = whole
  · simp [c2]
  by_cases c3 : p' = whole
  · simp [c3]
  simp only [c1, c2, c3, or_self, if_false, false_or]
  cases p.any (fun x => p'.any (pathsOverlap x)) <;> rfl

theorem foldBoth_any (f : Paths → Paths → Bool) (l : List (BitVec 32 × Paths × Paths)) :
    foldBoth (fun (_ : Unit) _ p p' => if f p p' then (.inl () : Unit ⊕ Unit) else .inr ()) l () =
      if l.any (fun e => f e.2.1 e.2.2) then .inl () else .inr () := by
  induction l with
  | nil => rfl
  | cons e l ih =>
    obtain ⟨r, p, p'⟩ := e
    unfold foldBoth
    cases h : f p p'
    · simp only [Bool.false_eq_true, if_false, List.any_cons, h, Bool.false_or]; exact ih
    · simp [h]

/-- `Lifetime_hasInter` on encoded lifetimes. -/
theorem Lifetime_hasInter_enc {a b : Regions} (ha : Valid a) (hb : Valid b) :
    Lifetime_hasInter (encode a) (encode b) = some ((common a b).any (fun e => overlapB e.2.1 e.2.2)) := by
  unfold Lifetime_hasInter
  rw [merge_enc hasInterVisitors (fun _ _ p p' => if overlapB p p' then .inl () else .inr ()) (fun s _ => s)
    (fun s r p p' h h' => hasInter_both r p p' h h') (fun s r p => rfl) a b ha.paths hb.paths ()]
  have h1 := mergeA_common (fun (_ : Unit) (_ : BitVec 32) p p' => if overlapB p p' then (.inl () : Unit ⊕ Unit) else .inr ()) a b ()
  rw [foldBoth_any] at h1
  simp only [Option.bind_eq_bind, Option.bind_some]
  have e1 : hasInterVisitors.leftDone = fun _ => none := rfl
  have e2 : hasInterVisitors.rightDone = fun _ => none := rfl
  rw [e1, e2]
  revert h1
  generalize mergeA _ _ _ _ a b () = m
  cases m with
  | ret x =>
    intro h
    split_ifs at h with c
    rw [c]
  | rest s l =>
    intro h
    split_ifs at h with c
    rw [Bool.not_eq_true] at c
    rw [c]

/-- `Lifetime_hasInter` answers whether the two lifetimes share a place: no overlap is missed, none is invented. -/
theorem C31_hasInter {a b : Regions} (ha : Valid a) (hb : Valid b) :
    ∃ x, Lifetime_hasInter (encode a) (encode b) = some x ∧ (x = true ↔ ∃ r q, denotes a r q ∧ denotes b r q) := by
  refine ⟨_, Lifetime_hasInter_enc ha hb, ?_⟩
  rw [List.any_eq_true]
  constructor
  · rintro ⟨⟨r, p, p'⟩, hm, h⟩
    obtain ⟨h1, h2⟩ := (common_mem ha hb r p p').mp hm
    obtain ⟨q, hq, hq'⟩ := (overlapB_iff (ha.paths _ h1) (hb.paths _ h2)).mp h
    exact ⟨r, q, ⟨p, h1, hq⟩, ⟨p', h2, hq'⟩⟩
  · rintro ⟨r, q, ⟨p, h1, hq⟩, ⟨p', h2, hq'⟩⟩
    exact ⟨(r, p, p'), (common_mem ha hb r p p').mpr ⟨h1, h2⟩,
      (overlapB_iff (ha.paths _ h1) (hb.paths _ h2)).mpr ⟨q, hq, hq'⟩⟩

theorem interLocids_both (s : List (BitVec 32)) (r : BitVec 32) (p p' : Paths) (h : ValidPaths p) (h' : ValidPaths p') :
    interLocidsVisitors.both s (leb r.toNat) (encPaths p) (encPaths p') r =
      some (.inr (if unpackLocid r ≠ 0#32 ∧ overlapB p p' = true then s ++ [unpackLocid r] else s)) := by
  unfold interLocidsVisitors overlapB
  simp only [enc_beq h h', enc_beq_empty h, enc_beq_empty h', Bool.or_eq_true, decide_eq_true_eq, beq_iff_eq, Paths_hasInter]
  rw [parsePaths_enc p h.enc, parsePaths_enc p' h'.enc]
  simp only [Option.bind_eq_bind, Option.bind_some]
  by_cases c0 : unpackLocid r = 0#32
  · simp [c0]
  by_cases c1 : p = p'
  · simp [c0, c1]
  by_cases c2 : p = whole
  · simp [c0, c2]
  by_cases c3 : p' = whole
  · simp [c0, c3]
  simp only [c0, c1, c2, c3, or_self, if_false, false_or, ne_eq, not_false_eq_true, true_and]

theorem foldBoth_filter (f : BitVec 32 → Paths → Paths → Prop) [∀ r p p', Decidable (f r p p')] (g : BitVec 32 → BitVec 32)
    (l : List (BitVec 32 × Paths × Paths)) (s : List (BitVec 32)) :
    foldBoth (fun s r p p' => (.inr (if f r p p' then s ++ [g r] else s) : Unit ⊕ List (BitVec 32))) l s =
      .inr (s ++ (l.filter (fun e => decide (f e.1 e.2.1 e.2.2))).map (fun e => g e.1)) := by
  induction l generalizing s with
  | nil => simp [foldBoth]
  | cons e l ih =>
    obtain ⟨r, p, p'⟩ := e
    unfold foldBoth
    simp only
    rw [ih, List.filter_cons]
    by_cases h : f r p p' <;> simp [h]

/-- `Lifetime_interLocids` lists the local variables in whose storage the two lifetimes overlap, all of them and no other. -/
theorem C31_interLocids {a b : Regions} (ha : Valid a) (hb : Valid b) :
    ∃ ls, Lifetime_interLocids (encode a) (encode b) = some ls ∧
      ∀ x, x ∈ ls ↔ x ≠ 0#32 ∧ ∃ r q, unpackLocid r = x ∧ denotes a r q ∧ denotes b r q := by
  have key : Lifetime_interLocids (encode a) (encode b) =
      some (((common a b).filter (fun e => decide (unpackLocid e.1 ≠ 0#32 ∧ overlapB e.2.1 e.2.2 = true))).map
        (fun e => unpackLocid e.1)) := by
    unfold Lifetime_interLocids
    rw [merge_enc interLocidsVisitors
      (fun s r p p' => .inr (if unpackLocid r ≠ 0#32 ∧ overlapB p p' = true then s ++ [unpackLocid r] else s)) (fun s _ => s)
      (fun s r p p' h h' => interLocids_both s r p p' h h') (fun s r p => rfl) a b ha.paths hb.paths []]
    have h1 := mergeA_common (fun s r p p' =>
      (.inr (if unpackLocid r ≠ 0#32 ∧ overlapB p p' = true then s ++ [unpackLocid r] else s) : Unit ⊕ List (BitVec 32))) a b []
    rw [foldBoth_filter (fun r p p' => unpackLocid r ≠ 0#32 ∧ overlapB p p' = true) unpackLocid, List.nil_append] at h1
    simp only [Option.bind_eq_bind, Option.bind_some]
    have e1 : interLocidsVisitors.leftDone = fun _ => none := rfl
    have e2 : interLocidsVisitors.rightDone = fun _ => none := rfl
    rw [e1, e2]
    revert h1
    generalize mergeA _ _ _ _ a b [] = m
    cases m with
    | ret x => intro h; cases h
    | rest s l => intro h; exact congrArg some (Sum.inr.inj h)
  refine ⟨_, key, fun x => ?_⟩
  simp only [List.mem_map, List.mem_filter, decide_eq_true_eq]
  constructor
  · rintro ⟨⟨r, p, p'⟩, ⟨hm, h0, h⟩, rfl⟩
    obtain ⟨h1, h2⟩ := (common_mem ha hb r p p').mp hm
    obtain ⟨q, hq, hq'⟩ := (overlapB_iff (ha.paths _ h1) (hb.paths _ h2)).mp h
    exact ⟨h0, r, q, rfl, ⟨p, h1, hq⟩, ⟨p', h2, hq'⟩⟩
  · rintro ⟨h0, r, q, rfl, ⟨p, h1, hq⟩, ⟨p', h2, hq'⟩⟩
    exact ⟨(r, p, p'), ⟨(common_mem ha hb r p p').mpr ⟨h1, h2⟩, h0,
      (overlapB_iff (ha.paths _ h1) (hb.paths _ h2)).mpr ⟨q, hq, hq'⟩⟩, rfl⟩

/-- `Lifetime_has` answers whether a region of the local variable occurs. -/
theorem C31_has {a : Regions} (ha : Valid a) (x : BitVec 32) :
    ∃ y, Lifetime_has (encode a) x = some y ∧ (y = true ↔ ∃ r q, unpackLocid r = x ∧ denotes a r q) := by
  unfold Lifetime_has
  rw [Lifetime_each_enc a (fun e he => (ha.paths e he).enc)]
  refine ⟨_, rfl, ?_⟩
  simp only [List.any_map, List.any_eq_true, Function.comp_apply, beq_iff_eq]
  constructor
  · rintro ⟨⟨r, p⟩, hm, h⟩
    obtain ⟨q, hq⟩ := den_some (ha.paths _ hm)
    exact ⟨r, q, h, p, hm, hq⟩
  · rintro ⟨r, q, h, p, hm, _⟩
    exact ⟨(r, p), hm, h⟩

/-! ## Local variables -/

theorem rotate_toNat {v : BitVec 32} (h : -2 ^ 30 ≤ v.toInt ∧ v.toInt < 2 ^ 30) :
    (sign_rotate v).toNat = if 0 ≤ v.toInt then 2 * v.toNat else 2 ^ 33 - 1 - 2 * v.toNat := by
  have hv := v.isLt
  have hi : v.toInt = if 2 * v.toNat < 2 ^ 32 then (v.toNat : Int) else v.toNat - 2 ^ 32 := BitVec.toInt_eq_toNat_cond v
  have hs : v.slt 0#32 = decide (v.toInt < 0) := by
    rw [BitVec.slt]; rfl
  have hsh : (v <<< 1).toNat = 2 * v.toNat % 2 ^ 32 := by
    rw [BitVec.toNat_shiftLeft, Nat.shiftLeft_eq, Nat.mul_comm]
  unfold sign_rotate
  by_cases c : v.toInt < 0
  · have hs' : v.slt 0#32 = true := by rw [hs, decide_eq_true c]
    have c' : ¬ 0 ≤ v.toInt := by omega
    rw [if_pos hs', if_neg c']
    have : v <<< 1 ^^^ 0xffffffff#32 = ~~~(v <<< 1) := by
      rw [show (0xffffffff#32 : BitVec 32) = BitVec.allOnes 32 from rfl, BitVec.xor_allOnes]
    rw [this, BitVec.toNat_not, hsh]
    split_ifs at hi <;> omega
  · have hs' : ¬ v.slt 0#32 = true := by rw [hs, decide_eq_false c]; simp
    have c' : 0 ≤ v.toInt := by omega
    rw [if_neg hs', if_pos c', BitVec.xor_zero, hsh]
    split_ifs at hi <;> omega

theorem and_one (v : BitVec 32) : (v &&& 1#32).toNat = v.toNat % 2 := by
  rw [BitVec.toNat_and]; exact Nat.and_two_pow_sub_one_eq_mod v.toNat 1

/-- The region of a local variable (or argument) names exactly that variable. -/
theorem C31_locid {x : BitVec 32} (h : -2 ^ 30 ≤ x.toInt ∧ x.toInt < 2 ^ 30) :
    unpackLocid (sign_rotate x <<< 1) = x := by
  have hr := rotate_toNat h
  have hv := x.isLt
  have hi : x.toInt = if 2 * x.toNat < 2 ^ 32 then (x.toNat : Int) else x.toNat - 2 ^ 32 := BitVec.toInt_eq_toNat_cond x
  have hlt : (sign_rotate x).toNat < 2 ^ 31 := by rw [hr]; split_ifs at hi ⊢ <;> omega
  have hsh : (sign_rotate x <<< 1).toNat = 2 * (sign_rotate x).toNat := by
    rw [BitVec.toNat_shiftLeft, Nat.shiftLeft_eq]; omega
  have hz : ¬ (sign_rotate x <<< 1) &&& 1#32 ≠ 0#32 := by
    rw [not_not]
    apply BitVec.eq_of_toNat_eq
    rw [and_one, hsh]
    show _ = 0
    omega
  have hb : sign_rotate x <<< 1 >>> 1 = sign_rotate x := by
    apply BitVec.eq_of_toNat_eq
    rw [BitVec.toNat_ushiftRight, hsh, Nat.shiftRight_eq_div_pow]; omega
  unfold unpackLocid
  rw [if_neg hz, hb]
  unfold sign_unrotate
  have hd : (sign_rotate x >>> 1).toNat = (sign_rotate x).toNat / 2 := by
    rw [BitVec.toNat_ushiftRight, Nat.shiftRight_eq_div_pow]
  have ho := and_one (sign_rotate x)
  by_cases c : 0 ≤ x.toInt
  · rw [if_pos c] at hr
    have : ¬ sign_rotate x &&& 1#32 ≠ 0#32 := by
      rw [not_not]; apply BitVec.eq_of_toNat_eq; rw [ho, hr]; show _ = 0; omega
    rw [if_neg this, BitVec.xor_zero]
    apply BitVec.eq_of_toNat_eq
    rw [hd, hr]; omega
  · rw [if_neg c] at hr
    have : sign_rotate x &&& 1#32 ≠ 0#32 := by
      intro h0
      have := congrArg BitVec.toNat h0
      rw [ho, hr] at this
      have h2 : (0#32).toNat = 0 := rfl
      rw [h2] at this
      omega
    rw [if_pos this, show (0xffffffff#32 : BitVec 32) = BitVec.allOnes 32 from rfl, BitVec.xor_allOnes]
    apply BitVec.eq_of_toNat_eq
    rw [BitVec.toNat_not, hd, hr]
    split_ifs at hi <;> omega

/-- The lifetime of a local variable of `n` flat fields denotes those fields of that variable. -/
theorem C31_from {x : BitVec 32} {n : Nat} (hn : 0 < n ∧ n < 2 ^ 31) :
    ∃ l, fromLocid x n = encode l ∧ Valid l ∧
      ∀ r q, denotes l r q ↔ r = sign_rotate x <<< 1 ∧ ∃ i q', q = i :: q' ∧ i < n := by
  refine ⟨[(sign_rotate x <<< 1, [[⟨n, 0⟩]])], ?_, ?_, ?_⟩
  · unfold fromLocid appendLocid
    rw [append7bit_eq, appendSub_last _ n 0 hn.2 (by omega), List.nil_append]
    simp [encode, encPaths, encPath]
  · refine ⟨List.pairwise_singleton _ _, fun e he => ?_⟩
    rw [List.mem_singleton] at he
    subst he
    refine Or.inr ⟨by simp, fun p hp => ?_⟩
    rw [List.mem_singleton] at hp
    subst hp
    exact ⟨hn.1, hn.2, by simp⟩
  · intro r q
    rw [denotes_cons]
    have h0 : ¬ ([[⟨n, 0⟩]] : Paths) = whole := by
      intro h
      simp only [whole, List.cons.injEq, SubRegion.mk.injEq, and_true] at h
      omega
    simp only [den, cov, h0, false_or, denotes_nil, or_false, List.mem_singleton, exists_eq_left]
    apply and_congr_right
    intro _
    cases q with
    | nil => simp [covers]
    | cons i q => simp [covers]

/-! ## Non-vacuity -/

/-- `{local 3: fields 0..1 and 4.0; static}` -/
def sampleA : Regions := [(12#32, [[⟨2, 0⟩], [⟨1, 4⟩, ⟨1, 0⟩]]), (1#32, whole)]
/-- `{temporary; local 3: field 4}` -/
def sampleB : Regions := [(9#32, whole), (12#32, [[⟨1, 4⟩]])]

theorem sampleA_valid : Valid sampleA := by
  refine ⟨?_, ?_⟩
  · rw [sampleA, List.pairwise_pair]; decide
  · intro e he
    simp only [sampleA, List.mem_cons, List.not_mem_nil, or_false] at he
    rcases he with rfl | rfl
    · refine Or.inr ⟨by simp, fun p hp => ?_⟩
      simp only [List.mem_cons, List.not_mem_nil, or_false] at hp
      rcases hp with rfl | rfl
      · exact ⟨by decide, by decide, by decide⟩
      · exact ⟨rfl, by decide, by decide, by decide, by decide⟩
    · exact Or.inl rfl

theorem sampleB_valid : Valid sampleB := by
  refine ⟨?_, ?_⟩
  · rw [sampleB, List.pairwise_pair]; decide
  · intro e he
    simp only [sampleB, List.mem_cons, List.not_mem_nil, or_false] at he
    rcases he with rfl | rfl
    · exact Or.inl rfl
    · refine Or.inr ⟨by simp, fun p hp => ?_⟩
      rw [List.mem_singleton] at hp
      subst hp
      exact ⟨by decide, by decide, by decide⟩

example : Lifetime_union [12#8, 0#8, 5#8, 9#8, 0#8, 2#8, 1#8, 0#8, 0#8] [9#8, 0#8, 0#8, 12#8, 8#8, 2#8] =
    some [9#8, 0#8, 0#8, 12#8, 0#8, 5#8, 8#8, 2#8, 1#8, 0#8, 0#8] := by decide +kernel

example : Lifetime_hasInter [12#8, 0#8, 5#8, 9#8, 0#8, 2#8, 1#8, 0#8, 0#8] [9#8, 0#8, 0#8, 12#8, 8#8, 2#8] =
    some true := by decide +kernel
example : Lifetime_hasInter [12#8, 0#8, 4#8, 1#8, 0#8, 0#8] [9#8, 0#8, 0#8, 12#8, 8#8, 2#8] =
    some false := by decide +kernel

end Verif.Lifetime
