import Verif.EmbedSpec
/-! # Fonts written as source code: bits, numbers and the table of code points -/
namespace Verif.Embed

theorem bitAt_eq (field : List (BitVec 64)) (i : Nat) : bitAt field i = (field[i / 64]?).map fun v => v.getLsbD (i % 64) := by
  unfold bitAt
  have h1 : i >>> 6 = i / 64 := by rw [Nat.shiftRight_eq_div_pow]
  have h2 : i &&& 63 = i % 64 := Nat.and_two_pow_sub_one_eq_mod i 6
  rw [h1, h2]
  congr 1
  funext v
  have hlt : i % 64 < 64 := Nat.mod_lt _ (by decide)
  generalize i % 64 = k at hlt
  cases hb : v.getLsbD k with
  | true =>
    simp only [decide_eq_true_eq]
    intro h
    have := congrArg (fun x => BitVec.getLsbD x k) h
    simp only [BitVec.getLsbD_and, hb, BitVec.getLsbD_shiftLeft, hlt] at this
    simp at this
  | false =>
    simp only [ne_eq, decide_not, Bool.not_eq_false', decide_eq_true_eq]
    apply BitVec.eq_of_getLsbD_eq
    intro j hj
    by_cases hjk : j = k
    · subst hjk; simp [hb]
    · rw [BitVec.getLsbD_and, BitVec.getLsbD_shiftLeft]
      by_cases h : j < k
      · simp [h]
      · have : j - k ≠ 0 := by omega
        simp [this]

/-- the loop of `bytes_to_bits`, after the bytes `p` -/
structure PackInv (p : List Byte) (s : Pack) : Prop where
  len : s.ret.length * 64 + s.bit = p.length
  lt : s.bit < 64
  full : ∀ i, i < s.ret.length * 64 → (s.ret[i / 64]?).map (fun v => v.getLsbD (i % 64)) = some (decide (p.getD i 0 ≠ 0))
  part : ∀ j, s.buffer.getLsbD j = (decide (j < s.bit) && decide (p.getD (s.ret.length * 64 + j) 0 ≠ 0))

theorem buffer_bit (buf : BitVec 64) (b : Byte) (k j : Nat) (hk : k < 64) :
    (buf ||| ((if b ≠ 0 then 1#64 else 0#64) <<< k)).getLsbD j = (buf.getLsbD j || (decide (j = k) && decide (b ≠ 0))) := by
  rw [BitVec.getLsbD_or, BitVec.getLsbD_shiftLeft]
  congr 1
  by_cases hb : b = 0
  · simp [hb]
  · simp only [ne_eq, hb, not_false_eq_true, if_true, decide_true, Bool.and_true]
    by_cases hjk : j = k
    · subst hjk; simp [hk]
    · by_cases h : j < k
      · simp [h, hjk]
      · have : j - k ≠ 0 := by omega
        simp [this, hjk]

theorem PackInv.push {p : List Byte} {s : Pack} (h : PackInv p s) (b : Byte) : PackInv (p ++ [b]) (packStep s b) := by
  have hl := h.len
  have hlt := h.lt
  have old : ∀ i, i < p.length → (p ++ [b]).getD i 0 = p.getD i 0 := by
    intro i hi; simp [List.getD_eq_getElem?_getD, List.getElem?_append_left hi]
  have new : (p ++ [b]).getD p.length 0 = b := by simp [List.getD_eq_getElem?_getD]
  have bits : ∀ j, (s.buffer ||| ((if b ≠ 0 then 1#64 else 0#64) <<< s.bit)).getLsbD j =
      (decide (j < s.bit + 1) && decide ((p ++ [b]).getD (s.ret.length * 64 + j) 0 ≠ 0)) := by
    intro j
    rw [buffer_bit _ _ _ _ hlt, h.part]
    by_cases hj : j < s.bit
    · rw [old _ (by omega)]
      have : j ≠ s.bit := by omega
      have h2 : j < s.bit + 1 := by omega
      simp [hj, this, h2]
    · by_cases he : j = s.bit
      · subst he
        rw [hl, new]; simp
      · have h2 : ¬ j < s.bit + 1 := by omega
        simp [hj, he, h2]
  unfold packStep
  by_cases hb : s.bit + 1 = 64
  · rw [if_pos hb]
    refine ⟨by simp; omega, Nat.zero_lt_succ _, ?_, by simp⟩
    intro i hi
    simp only [List.length_append, List.length_singleton] at hi
    by_cases hc : i < s.ret.length * 64
    · rw [List.getElem?_append_left (by omega), h.full i hc, old _ (by omega)]
    · have hd : i / 64 = s.ret.length := by omega
      rw [hd, List.getElem?_append_right (by omega)]
      simp only [Nat.sub_self, List.getElem?_cons_zero, Option.map_some]
      rw [bits]
      have h1 : i % 64 < s.bit + 1 := by omega
      have h2 : s.ret.length * 64 + i % 64 = i := by omega
      rw [h2]; simp [h1]
  · rw [if_neg hb]
    refine ⟨by simp; omega, by show s.bit + 1 < 64; omega, ?_, bits⟩
    intro i hi
    change i < s.ret.length * 64 at hi
    change Option.map _ s.ret[i / 64]? = _
    rw [h.full i hi, old _ (by omega)]

theorem PackInv.all (q : List Byte) : ∀ (p : List Byte) (s : Pack), PackInv p s → PackInv (p ++ q) (q.foldl packStep s) := by
  induction q with
  | nil => intro p s h; simpa using h
  | cons b q ih =>
    intro p s h
    have := ih (p ++ [b]) _ (h.push b)
    simpa using this

/-- the words are the bits of the bytes, 64 to a word, the first lowest; the last is filled up with zeros -/
theorem bytesToBits_bits (bytes : List Byte) :
    (bytesToBits bytes).length = (bytes.length + 63) / 64 ∧
    ∀ i, i < (bytesToBits bytes).length * 64 → bitAt (bytesToBits bytes) i = some (decide (bytes.getD i 0 ≠ 0)) := by
  have h := PackInv.all bytes [] ⟨[], 0, 0⟩ ⟨rfl, by decide, by simp, by simp⟩
  rw [List.nil_append] at h
  unfold bytesToBits
  generalize bytes.foldl packStep ⟨[], 0, 0⟩ = s at h
  have hl := h.len
  have hlt := h.lt
  by_cases hb : s.bit ≠ 0
  · rw [if_pos hb]
    refine ⟨by simp; omega, ?_⟩
    intro i hi
    rw [bitAt_eq]
    simp only [List.length_append, List.length_singleton] at hi
    by_cases hc : i < s.ret.length * 64
    · rw [List.getElem?_append_left (by omega), h.full i hc]
    · have hd : i / 64 = s.ret.length := by omega
      rw [hd, List.getElem?_append_right (by omega)]
      simp only [Nat.sub_self, List.getElem?_cons_zero, Option.map_some]
      rw [h.part]
      have h2 : s.ret.length * 64 + i % 64 = i := by omega
      rw [h2]
      by_cases hj : i % 64 < s.bit
      · simp [hj]
      · have : bytes.getD i 0 = 0 := by
          rw [List.getD_eq_getElem?_getD, List.getElem?_eq_none (by omega)]; rfl
        rw [this]; simp
  · rw [if_neg hb]
    refine ⟨by omega, ?_⟩
    intro i hi
    rw [bitAt_eq, h.full i hi]

theorem unpackLoop_spec (field : List (BitVec 64)) : ∀ (n i : Nat) (bytes : List Byte), i + n = bytes.length → i + n = field.length * 64 →
    ∃ r, unpackLoop field bytes i n = some r ∧ r.length = bytes.length ∧
      (∀ j, j < i → r[j]? = bytes[j]?) ∧
      ∀ j b, i ≤ j → bitAt field j = some b → r[j]? = if b then some 255 else bytes[j]? := by
  intro n
  induction n with
  | zero =>
    intro i bytes h1 h2
    refine ⟨bytes, rfl, rfl, fun _ _ => rfl, ?_⟩
    intro j b hj hb
    rw [bitAt_eq, List.getElem?_eq_none (by omega)] at hb
    cases hb
  | succ n ih =>
    intro i bytes h1 h2
    have hi : i / 64 < field.length := by omega
    obtain ⟨b, hb⟩ : ∃ b, bitAt field i = some b := by
      rw [bitAt_eq, List.getElem?_eq_getElem hi]; exact ⟨_, rfl⟩
    unfold unpackLoop
    rw [hb, Option.bind_some]
    have hlen : (if b then bytes.set i 255 else bytes).length = bytes.length := by split <;> simp
    obtain ⟨r, e, hr, lo, hi'⟩ := ih (i + 1) (if b then bytes.set i 255 else bytes) (by omega) (by omega)
    refine ⟨r, e, by omega, ?_, ?_⟩
    · intro j hj
      rw [lo j (by omega)]
      split
      · rw [List.getElem?_set_ne (by omega)]
      · rfl
    · intro j b' hj hb'
      by_cases hji : j = i
      · subst hji
        rw [hb] at hb'; cases hb'
        rw [lo j (by omega)]
        cases b
        · rfl
        · simp only [if_true]
          rw [List.getElem?_set_self (by omega)]
      · rw [hi' j b' (by omega) hb']
        congr 1
        cases b
        · rfl
        · simp only [if_true]; rw [List.getElem?_set_ne (by omega)]

/-- the pixels are black where they were not zero, and there are zeros up to a multiple of 64 -/
theorem bits_round (bytes : List Byte) : ∃ r, bitsToBytes (bytesToBits bytes) = some r ∧
    r.length = (bytes.length + 63) / 64 * 64 ∧ r = bytes.map lit ++ List.replicate ((bytes.length + 63) / 64 * 64 - bytes.length) 0 := by
  obtain ⟨hl, hb⟩ := bytesToBits_bits bytes
  obtain ⟨r, e, hr, -, h⟩ := unpackLoop_spec (bytesToBits bytes) ((bytesToBits bytes).length * 64) 0
    (List.replicate ((bytesToBits bytes).length * 64) 0) (by simp) (by simp)
  refine ⟨r, e, by simp [hr, hl], ?_⟩
  simp only [List.length_replicate] at hr
  apply List.ext_getElem?
  intro i
  by_cases hi : i < (bytesToBits bytes).length * 64
  · rw [h i _ (Nat.zero_le _) (hb i hi), List.getElem?_replicate, if_pos hi]
    by_cases hlt : i < bytes.length
    · rw [List.getElem?_append_left (by simpa using hlt), List.getElem?_map, List.getElem?_eq_getElem hlt]
      simp only [List.getD_eq_getElem?_getD, List.getElem?_eq_getElem hlt, Option.getD_some, Option.map_some, lit]
      by_cases hz : bytes[i] = 0#8 <;> simp [hz]
    · have : bytes.getD i 0 = 0 := by rw [List.getD_eq_getElem?_getD, List.getElem?_eq_none (by omega)]; rfl
      rw [List.getElem?_append_right (by simp; omega), List.getElem?_replicate, this,
        if_pos (show i - (bytes.map lit).length < (bytes.length + 63) / 64 * 64 - bytes.length by rw [List.length_map]; omega)]
      simp
  · rw [List.getElem?_eq_none (by omega), List.getElem?_eq_none (by simp; omega)]

theorem hex_digit (d : Nat) (h : d < 16) :
    digit (if d ≥ 10 then BitVec.ofNat 8 (97 + (d - 10)) else BitVec.ofNat 8 (48 + d)) = some d ∧
    (if d ≥ 10 then BitVec.ofNat 8 (97 + (d - 10)) else BitVec.ofNat 8 (48 + d)) ≠ ch ' ' ∧
    (if d ≥ 10 then BitVec.ofNat 8 (97 + (d - 10)) else BitVec.ofNat 8 (48 + d)) ≠ ch ',' := by
  have : ∀ d : Fin 16, digit (if d.val ≥ 10 then BitVec.ofNat 8 (97 + (d.val - 10)) else BitVec.ofNat 8 (48 + d.val)) = some d.val ∧
    (if d.val ≥ 10 then BitVec.ofNat 8 (97 + (d.val - 10)) else BitVec.ofNat 8 (48 + d.val)) ≠ ch ' ' ∧
    (if d.val ≥ 10 then BitVec.ofNat 8 (97 + (d.val - 10)) else BitVec.ofNat 8 (48 + d.val)) ≠ ch ',' := by decide
  exact this ⟨d, h⟩

theorem hexLoop_value (v : Nat) : (hexLoop v).reverse.foldlM (fun a c => (digit c).map (16 * a + ·)) 0 = some v := by
  induction v using Nat.strongRecOn with
  | _ v ih =>
    unfold hexLoop
    by_cases h : v = 0
    · simp [h]
    · rw [dif_neg h, List.reverse_cons, List.foldlM_append, ih (v / 16) (by omega)]
      have := (hex_digit (v % 16) (Nat.mod_lt _ (by decide))).1
      simp only [List.foldlM_cons, List.foldlM_nil, Option.bind_eq_bind, Option.bind_some, this, Option.map_some]
      simp only [Option.pure_def, Option.some.injEq]
      omega

theorem hexLoop_plain (v : Nat) : ∀ c ∈ hexLoop v, c ≠ ch ' ' ∧ c ≠ ch ',' := by
  induction v using Nat.strongRecOn with
  | _ v ih =>
    unfold hexLoop
    by_cases h : v = 0
    · simp [h]
    · rw [dif_neg h]
      intro c hc
      rcases List.mem_cons.1 hc with rfl | hc
      · exact (hex_digit (v % 16) (Nat.mod_lt _ (by decide))).2
      · exact ih _ (by omega) c hc

/-- every number is read back as it was written -/
theorem number_hex (v : Nat) : number (hex v) = some v := by
  unfold hex
  by_cases h : v = 0
  · subst h; simp [number]
  · rw [if_neg h, List.reverse_append]
    have e : (str "x0").reverse = str "0x" := by decide
    rw [e]
    unfold number
    have hne : str "0x" ++ (hexLoop v).reverse ≠ str "0" := by
      intro he
      have := congrArg List.length he
      simp [str] at this
    rw [if_neg hne]
    have ht : (str "0x" ++ (hexLoop v).reverse).take 2 = str "0x" := rfl
    have hd : (str "0x" ++ (hexLoop v).reverse).drop 2 = (hexLoop v).reverse := rfl
    rw [if_pos ht, hd]
    exact hexLoop_value v

theorem hex_plain (v : Nat) : hex v ≠ [] ∧ ∀ c ∈ hex v, c ≠ ch ' ' ∧ c ≠ ch ',' := by
  unfold hex
  by_cases h : v = 0
  · rw [if_pos h]; decide
  · rw [if_neg h]
    refine ⟨by simp [str], ?_⟩
    intro c hc
    simp only [List.mem_reverse, List.mem_append] at hc
    rcases hc with hc | hc
    · exact hexLoop_plain v c hc
    · revert c; decide

theorem commas_step (s : Str) (h : ∀ c ∈ s, c ≠ ch ',') : ∀ (acc t : Str), commasFrom acc (s ++ ch ',' :: t) = (acc ++ s) :: commasFrom [] t := by
  induction s with
  | nil => intro acc t; simp [commasFrom]
  | cons c s ih =>
    intro acc t
    simp only [List.cons_append, commasFrom]
    rw [if_neg (h c (by simp)), ih (fun x hx => h x (by simp [hx]))]
    simp

theorem filter_plain (s : Str) (h : ∀ c ∈ s, c ≠ ch ' ') : s.filter (· ≠ ch ' ') = s := by
  rw [List.filter_eq_self]
  intro c hc
  simpa using h c hc

/-- a written list is read back -/
theorem readList_text (vs : List Nat) : readList (listText vs) = some vs := by
  have key : ∀ vs : List Nat, commasFrom [] ((vs.flatMap fun v => hex v ++ str ", ").filter (· ≠ ch ' ')) = vs.map hex ++ [[]] := by
    intro vs
    induction vs with
    | nil => rfl
    | cons v vs ih =>
      rw [List.flatMap_cons, List.filter_append, List.filter_append, filter_plain _ (fun c hc => ((hex_plain v).2 c hc).1)]
      have : (str ", ").filter (· ≠ ch ' ') = [ch ','] := by decide
      rw [this, List.append_assoc, List.singleton_append, commas_step _ (fun c hc => ((hex_plain v).2 c hc).2), ih]
      simp
  unfold readList listText
  have : (str " ").filter (· ≠ ch ' ') = [] := by decide
  rw [List.filter_append, this, List.nil_append, key, List.filter_append]
  have h1 : (vs.map hex).filter (· ≠ []) = vs.map hex := by
    rw [List.filter_eq_self]
    intro s hs
    obtain ⟨v, -, rfl⟩ := List.mem_map.1 hs
    simpa using (hex_plain v).1
  rw [h1]
  simp only [ne_eq, not_true_eq_false, decide_false, Bool.false_eq_true, not_false_eq_true, List.filter_cons_of_neg, List.filter_nil, List.append_nil]
  induction vs with
  | nil => rfl
  | cons v vs ih =>
    have h1' : (vs.map hex).filter (· ≠ []) = vs.map hex := by
      rw [List.filter_eq_self]
      intro s hs
      obtain ⟨v, -, rfl⟩ := List.mem_map.1 hs
      simpa using (hex_plain v).1
    rw [List.map_cons, List.mapM_cons, number_hex, ih h1']
    rfl

end Verif.Embed
