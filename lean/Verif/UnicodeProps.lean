import Verif.Unicode
import Mathlib.Tactic.SplitIfs
import Mathlib.Tactic.ByContra
/-!
# UTF-8: encoding and decoding (C20), reads stay in bounds (C21)

Independent specifications: the arithmetic form of RFC 3629 (`rfc`), and Lean's own `String.utf8EncodeChar`.
-/
namespace Verif.Unicode
open Verif

/-- Specification: RFC 3629, section 3. -/
def rfc (c : Nat) : List Nat :=
  if c < 0x80 then [c]
  else if c < 0x800 then [0xc0 + c / 64, 0x80 + c % 64]
  else if c < 0x10000 then [0xe0 + c / 4096, 0x80 + c / 64 % 64, 0x80 + c % 64]
  else [0xf0 + c / 262144, 0x80 + c / 4096 % 64, 0x80 + c / 64 % 64, 0x80 + c % 64]

theorem or_c0 (x : Nat) (h : x < 32) : x ||| 0xc0 = 0xc0 + x :=
  (show ∀ x : Fin 32, x.val ||| 0xc0 = 0xc0 + x.val by decide) ⟨x, h⟩
theorem or_80 (x : Nat) (h : x < 64) : x ||| 0x80 = 0x80 + x :=
  (show ∀ x : Fin 64, x.val ||| 0x80 = 0x80 + x.val by decide) ⟨x, h⟩
theorem or_e0 (x : Nat) (h : x < 16) : x ||| 0xe0 = 0xe0 + x :=
  (show ∀ x : Fin 16, x.val ||| 0xe0 = 0xe0 + x.val by decide) ⟨x, h⟩
theorem or_f0 (x : Nat) (h : x < 8) : x ||| 0xf0 = 0xf0 + x :=
  (show ∀ x : Fin 8, x.val ||| 0xf0 = 0xf0 + x.val by decide) ⟨x, h⟩

theorem shr_div (c k : Nat) : c >>> k = c / 2 ^ k := Nat.shiftRight_eq_div_pow c k
theorem and_3f (x : Nat) : x &&& 0x3f = x % 64 := Nat.and_two_pow_sub_one_eq_mod x 6
theorem and_1f (x : Nat) : x &&& 0x1f = x % 32 := Nat.and_two_pow_sub_one_eq_mod x 5
theorem and_0f (x : Nat) : x &&& 0x0f = x % 16 := Nat.and_two_pow_sub_one_eq_mod x 4
theorem and_07 (x : Nat) : x &&& 0x07 = x % 8 := Nat.and_two_pow_sub_one_eq_mod x 3

/-- The encoder is RFC 3629's, for every code point up to 0x10ffff. -/
theorem C20_encode_rfc (c : Nat) (h : c ≤ 0x10ffff) : utf8 c = (rfc c).map byteOf := by
  unfold utf8 rfc
  simp only [shr_div, and_3f, and_1f, and_0f, and_07]
  by_cases h1 : c ≤ 0x7f
  · rw [if_pos h1, if_pos (show c < 0x80 by omega)]; rfl
  · rw [if_neg h1, if_neg (show ¬ c < 0x80 by omega)]
    by_cases h2 : c ≤ 0x7ff
    · rw [if_pos h2, if_pos (show c < 0x800 by omega), or_c0 _ (Nat.mod_lt _ (by omega)), or_80 _ (Nat.mod_lt _ (by omega))]
      simp only [List.map_cons, List.map_nil]
      rw [Nat.mod_eq_of_lt (show c / 2 ^ 6 < 32 by omega)]; simp
    · rw [if_neg h2, if_neg (show ¬ c < 0x800 by omega)]
      by_cases h3 : c ≤ 0xffff
      · rw [if_pos h3, if_pos (show c < 0x10000 by omega), or_e0 _ (Nat.mod_lt _ (by omega)), or_80 _ (Nat.mod_lt _ (by omega)),
          or_80 _ (Nat.mod_lt _ (by omega))]
        simp only [List.map_cons, List.map_nil]
        rw [Nat.mod_eq_of_lt (show c / 2 ^ 12 < 16 by omega)]; simp
      · rw [if_neg h3, if_neg (show ¬ c < 0x10000 by omega), if_pos h, or_f0 _ (Nat.mod_lt _ (by omega)), or_80 _ (Nat.mod_lt _ (by omega)),
          or_80 _ (Nat.mod_lt _ (by omega)), or_80 _ (Nat.mod_lt _ (by omega))]
        simp only [List.map_cons, List.map_nil]
        rw [Nat.mod_eq_of_lt (show c / 2 ^ 18 < 8 by omega)]; simp

/-- Beyond 0x10ffff the encoder gives no bytes. -/
theorem C20_encode_out_of_range (c : Nat) (h : 0x10ffff < c) : utf8 c = [] := by
  unfold utf8
  rw [if_neg (by omega), if_neg (by omega), if_neg (by omega), if_neg (by omega)]

/-- For every Lean `Char` the bytes are those of Lean's own UTF-8 encoder. -/
theorem C20_encode_lean (c : Char) : utf8 c.toNat = (String.utf8EncodeChar c).map UInt8.toBitVec := by
  have hr : c.toNat ≤ 0x10ffff := by
    have := c.valid
    simp only [UInt32.isValidChar, Nat.isValidChar] at this
    have h' : c.toNat = c.val.toNat := rfl
    omega
  rw [C20_encode_rfc _ hr]
  unfold String.utf8EncodeChar rfc
  have h' : c.val.toNat = c.toNat := rfl
  simp only [h']
  by_cases h1 : c.toNat ≤ 0x7f
  · rw [if_pos (show c.toNat < 0x80 by omega), if_pos h1]; rfl
  · rw [if_neg h1, if_neg (show ¬ c.toNat < 0x80 by omega)]
    by_cases h2 : c.toNat ≤ 0x7ff
    · rw [if_pos h2, if_pos (show c.toNat < 0x800 by omega)]
      simp only [List.map_cons, List.map_nil]
      rw [Nat.mod_eq_of_lt (show c.toNat / 64 < 32 by omega), Nat.add_comm 0xc0, Nat.add_comm 0x80]; rfl
    · rw [if_neg h2, if_neg (show ¬ c.toNat < 0x800 by omega)]
      by_cases h3 : c.toNat ≤ 0xffff
      · rw [if_pos h3, if_pos (show c.toNat < 0x10000 by omega)]
        simp only [List.map_cons, List.map_nil]
        rw [Nat.mod_eq_of_lt (show c.toNat / 4096 < 16 by omega), Nat.add_comm 0xe0, Nat.add_comm 0x80, Nat.add_comm 0x80]; rfl
      · rw [if_neg h3, if_neg (show ¬ c.toNat < 0x10000 by omega)]
        simp only [List.map_cons, List.map_nil]
        rw [Nat.mod_eq_of_lt (show c.toNat / 262144 < 8 by omega), Nat.add_comm 0xf0, Nat.add_comm 0x80, Nat.add_comm 0x80,
          Nat.add_comm 0x80]; rfl

/-! ## Decoding -/

theorem byteOf_toNat {n : Nat} (h : n < 256) : (byteOf n).toNat = n := by
  unfold byteOf; rw [BitVec.toNat_ofNat]; exact Nat.mod_eq_of_lt h

theorem cont_ok (x : Nat) (h : x < 64) : (0x80 + x) &&& 0xc0 = 0x80 ∧ (0x80 + x) &&& 0xffffff3f = x :=
  (show ∀ x : Fin 64, (0x80 + x.val) &&& 0xc0 = 0x80 ∧ (0x80 + x.val) &&& 0xffffff3f = x.val by decide) ⟨x, h⟩

theorem lead2 (x : Nat) (h : x < 32) : extraOf (0xc0 + x) = some 1 ∧ (0xc0 + x) &&& (0x3f >>> 1) = x :=
  (show ∀ x : Fin 32, extraOf (0xc0 + x.val) = some 1 ∧ (0xc0 + x.val) &&& (0x3f >>> 1) = x.val by decide) ⟨x, h⟩
theorem lead3 (x : Nat) (h : x < 16) : extraOf (0xe0 + x) = some 2 ∧ (0xe0 + x) &&& (0x3f >>> 2) = x :=
  (show ∀ x : Fin 16, extraOf (0xe0 + x.val) = some 2 ∧ (0xe0 + x.val) &&& (0x3f >>> 2) = x.val by decide) ⟨x, h⟩
theorem lead4 (x : Nat) (h : x < 8) : extraOf (0xf0 + x) = some 3 ∧ (0xf0 + x) &&& (0x3f >>> 3) = x :=
  (show ∀ x : Fin 8, extraOf (0xf0 + x.val) = some 3 ∧ (0xf0 + x.val) &&& (0x3f >>> 3) = x.val by decide) ⟨x, h⟩

theorem shl6_or (c x : Nat) (h : x < 64) : c <<< 6 ||| x = 64 * c + x := by
  rw [← Nat.shiftLeft_add_eq_or_of_lt (i := 6) (by omega), Nat.shiftLeft_eq]; omega

theorem contLoop_step {s : Str} {i i1 c x : Nat} (hx : x < 64) (hs : s[i + 1]? = some (byteOf (0x80 + x))) :
    contLoop s i i1 c = if i + 1 < i1 then contLoop s (i + 1) i1 (64 * c + x) else some (i + 1, some (64 * c + x)) := by
  rw [contLoop, hs]
  simp only
  rw [byteOf_toNat (by omega), (cont_ok x hx).1, (cont_ok x hx).2, if_neg (by simp), shl6_or c x hx]

/-- Decoding at a position where the bytes of `rfc c` stand gives `c` and the position of the last of them. -/
theorem stepAt_rfc (s : Str) (i c : Nat) (h : c ≤ 0x10ffff)
    (hs : ∀ (j : Nat) (hj : j < (rfc c).length), s[i + j]? = some (byteOf (rfc c)[j])) :
    stepAt s i = some (i + (rfc c).length - 1, .each c (i + (rfc c).length - 1)) := by
  have len_of : ∀ j, j < (rfc c).length → i + j < s.length := fun j hj =>
    (List.getElem?_eq_some_iff.1 (hs j hj)).1
  unfold stepAt
  by_cases h1 : c < 0x80
  · have hr : rfc c = [c] := by unfold rfc; rw [if_pos h1]
    simp only [hr] at hs ⊢
    have h0 := hs 0 (by simp)
    simp only [Nat.add_zero, List.getElem_cons_zero] at h0
    rw [h0]
    simp only
    rw [byteOf_toNat (by omega), if_neg (by omega)]
    rfl
  by_cases h2 : c < 0x800
  · have hr : rfc c = [0xc0 + c / 64, 0x80 + c % 64] := by unfold rfc; rw [if_neg h1, if_pos h2]
    simp only [hr] at hs len_of ⊢
    have h0 := hs 0 (by simp)
    have h1 := hs 1 (by simp)
    have hl := len_of 1 (by simp)
    simp only [Nat.add_zero, List.getElem_cons_zero, List.getElem_cons_succ] at h0 h1
    rw [h0]
    simp only
    rw [byteOf_toNat (by omega), if_pos (by omega), (lead2 _ (by omega)).1]
    simp only
    rw [if_neg (by omega), (lead2 _ (by omega)).2, contLoop_step (by omega) h1, if_neg (by omega)]
    simp only [List.length_cons, List.length_nil]
    rw [show 64 * (c / 64) + c % 64 = c by omega]
    rfl
  by_cases h3 : c < 0x10000
  · have hr : rfc c = [0xe0 + c / 4096, 0x80 + c / 64 % 64, 0x80 + c % 64] := by
      unfold rfc; rw [if_neg h1, if_neg h2, if_pos h3]
    simp only [hr] at hs len_of ⊢
    have h0 := hs 0 (by simp)
    have h1 := hs 1 (by simp)
    have h2 := hs 2 (by simp)
    have hl := len_of 2 (by simp)
    simp only [Nat.add_zero, List.getElem_cons_zero, List.getElem_cons_succ] at h0 h1 h2
    rw [h0]
    simp only
    rw [byteOf_toNat (by omega), if_pos (by omega), (lead3 _ (by omega)).1]
    simp only
    rw [if_neg (by omega), (lead3 _ (by omega)).2, contLoop_step (by omega) h1, if_pos (by omega),
      contLoop_step (by omega) h2, if_neg (by omega)]
    simp only [List.length_cons, List.length_nil]
    rw [show 64 * (64 * (c / 4096) + c / 64 % 64) + c % 64 = c by omega]
    rfl
  · have hr : rfc c = [0xf0 + c / 262144, 0x80 + c / 4096 % 64, 0x80 + c / 64 % 64, 0x80 + c % 64] := by
      unfold rfc; rw [if_neg h1, if_neg h2, if_neg h3]
    simp only [hr] at hs len_of ⊢
    have h0 := hs 0 (by simp)
    have h1 := hs 1 (by simp)
    have h2 := hs 2 (by simp)
    have h3 := hs 3 (by simp)
    have hl := len_of 3 (by simp)
    simp only [Nat.add_zero, List.getElem_cons_zero, List.getElem_cons_succ] at h0 h1 h2 h3
    rw [h0]
    simp only
    rw [byteOf_toNat (by omega), if_pos (by omega), (lead4 _ (by omega)).1]
    simp only
    rw [if_neg (by omega), (lead4 _ (by omega)).2, contLoop_step (by omega) h1, if_pos (by omega),
      contLoop_step (by omega) h2, if_pos (by omega), contLoop_step (by omega) h3, if_neg (by omega)]
    simp only [List.length_cons, List.length_nil]
    rw [show 64 * (64 * (64 * (c / 262144) + c / 4096 % 64) + c / 64 % 64) + c % 64 = c by omega]
    rfl

/-- Specification: the callbacks a decoder owes for code points encoded back to back from offset `off`: one `each` per
code point, with the index of its last byte. -/
def marks : Nat → List Nat → List Ev
  | _, [] => []
  | off, c :: cs => .each c (off + (rfc c).length - 1) :: marks (off + (rfc c).length) cs

theorem rfc_length_pos (c : Nat) : 0 < (rfc c).length := by unfold rfc; split_ifs <;> simp

/-- **C20.** For every list of code points in range, decoding the concatenated encodings calls `each` on exactly those code
points, in order, with the right positions, and never `error`. -/
theorem C20_roundtrip (cs : List Nat) (h : ∀ c ∈ cs, c ≤ 0x10ffff) : codepoints (cs.flatMap utf8) = some (marks 0 cs) := by
  suffices H : ∀ (cs : List Nat) (pre : Str), (∀ c ∈ cs, c ≤ 0x10ffff) →
      codepointsFrom (pre ++ cs.flatMap utf8) pre.length = some (marks pre.length cs) by
    have := H cs [] h
    unfold codepoints
    simpa using this
  intro cs
  induction cs with
  | nil => intro pre _; rw [codepointsFrom]; simp [marks]
  | cons c cs ih =>
    intro pre hcs
    have hc := hcs c (by simp)
    have henc := C20_encode_rfc c hc
    have hpos := rfc_length_pos c
    have hlen : (utf8 c).length = (rfc c).length := by rw [henc]; simp
    rw [List.flatMap_cons]
    have hstep : stepAt (pre ++ (utf8 c ++ cs.flatMap utf8)) pre.length =
        some (pre.length + (rfc c).length - 1, .each c (pre.length + (rfc c).length - 1)) := by
      apply stepAt_rfc _ _ _ hc
      intro j hj
      rw [List.getElem?_append_right (by omega), Nat.add_sub_cancel_left, List.getElem?_append_left (by omega), henc]
      simp [hj]
    rw [codepointsFrom, if_pos (by simp; omega)]
    split
    · next e => rw [hstep] at e; exact absurd e (by simp)
    · next i' ev e =>
      rw [hstep] at e
      injection e with e
      injection e with e1 e2
      subst e1 e2
      have := ih (pre ++ utf8 c) (fun c' h' => hcs c' (by simp [h']))
      rw [List.append_assoc, List.length_append, hlen] at this
      rw [show pre.length + (rfc c).length - 1 + 1 = pre.length + (rfc c).length by omega, this]
      rfl

/-- The code points seen by `each`. -/
def seen (evs : List Ev) : List Nat := evs.filterMap fun e => match e with | .each c _ => some c | .error _ => none

/-- The text of every Lean string decodes to its characters. -/
theorem C20_decode_strings (cs : List Char) :
    ∃ evs, codepoints (cs.flatMap fun c => (String.utf8EncodeChar c).map UInt8.toBitVec) = some evs ∧
      seen evs = cs.map Char.toNat ∧ ∀ i, Ev.error i ∉ evs := by
  have e : (cs.flatMap fun c => (String.utf8EncodeChar c).map UInt8.toBitVec) = (cs.map Char.toNat).flatMap utf8 := by
    rw [List.flatMap_map]
    congr 1
    funext c
    exact (C20_encode_lean c).symm
  have hr : ∀ c ∈ cs.map Char.toNat, c ≤ 0x10ffff := by
    intro c hc
    obtain ⟨c', _, rfl⟩ := List.mem_map.1 hc
    have := c'.valid
    simp only [UInt32.isValidChar, Nat.isValidChar] at this
    have h' : c'.toNat = c'.val.toNat := rfl
    omega
  rw [e, C20_roundtrip _ hr]
  refine ⟨_, rfl, ?_, ?_⟩
  · generalize cs.map Char.toNat = l
    clear e hr
    generalize 0 = off
    induction l generalizing off with
    | nil => rfl
    | cons c l ih =>
      show c :: seen (marks _ l) = _
      rw [ih]
  · intro i
    generalize cs.map Char.toNat = l
    clear e hr
    generalize 0 = off
    induction l generalizing off with
    | nil => simp [marks]
    | cons c l ih => simp [marks, ih]

example : codepoints (str "h" ++ [0xe4#8, 0xb8#8, 0xad#8] ++ str "!") =
    some [.each 104 0, .each 0x4e2d 3, .each 33 4] := by decide +kernel

/-! ## C21: bounds -/

theorem contLoop_ok (s : Str) (i i1 c : Nat) (hi : i < i1) (h : i1 < s.length) :
    ∃ r, contLoop s i i1 c = some r ∧ r.1 ≤ i1 := by
  induction hn : i1 - i generalizing i c with
  | zero => omega
  | succ n ih =>
    rw [contLoop, List.getElem?_eq_getElem (show i + 1 < s.length by omega)]
    simp only
    split
    · exact ⟨_, rfl, by simp; omega⟩
    · split
      · next h1 => exact ih (i + 1) _ h1 (by omega)
      · exact ⟨_, rfl, by simp; omega⟩

/-- A lead byte stands at `p` and the string ends exactly one byte before its sequence does. -/
def CutAt (s : Str) (p : Nat) : Prop := ∃ b extra, s[p]? = some b ∧ extraOf b.toNat = some extra ∧ p + extra = s.length

theorem extraOf_pos {c e : Nat} (h : extraOf c = some e) : 0 < e ∧ e ≤ 3 := by
  unfold extraOf at h
  split_ifs at h <;> injection h with h <;> omega

theorem stepAt_ok (s : Str) (i : Nat) (hi : i < s.length) (hc : ¬ CutAt s i) : ∃ r, stepAt s i = some r := by
  unfold stepAt
  rw [List.getElem?_eq_getElem hi]
  simp only
  split
  · split
    · exact ⟨_, rfl⟩
    · next extra he =>
      split
      · exact ⟨_, rfl⟩
      · next hlt =>
        have hne : i + extra ≠ s.length := fun e => hc ⟨s[i], extra, List.getElem?_eq_getElem hi, he, e⟩
        have hp := extraOf_pos he
        obtain ⟨r, e, _⟩ := contLoop_ok s i (i + extra) (s[i].toNat &&& 0x3f >>> extra) (by omega) (by omega)
        rw [e]
        obtain ⟨i', o⟩ := r
        cases o with
        | none => exact ⟨_, rfl⟩
        | some c => exact ⟨_, rfl⟩
  · exact ⟨_, rfl⟩

/-- **C21, as far as it holds.** Decoding never reads out of bounds on any string that does not end exactly one byte
short of a sequence announced by a lead byte; on all other strings every malformed or truncated sequence is reported
through `error`.  The full statement (every byte string) is false: `C21_truncated_reads_past_end`. -/
theorem C21_in_bounds_partial (s : Str) (h : ∀ p, ¬ CutAt s p) : ∃ evs, codepoints s = some evs := by
  suffices H : ∀ n i, s.length - i = n → ∃ evs, codepointsFrom s i = some evs from H _ 0 rfl
  intro n
  induction n using Nat.strongRecOn with
  | ind n ih =>
    intro i hn
    rw [codepointsFrom]
    split
    · next hi =>
      split
      · next e =>
        obtain ⟨r, er⟩ := stepAt_ok s i hi (h i)
        rw [er] at e; exact absurd e (by simp)
      · next i' ev e =>
        have hge := stepAt_ge e
        simp only at hge
        obtain ⟨evs, he⟩ := ih (s.length - (i' + 1)) (by omega) (i' + 1) rfl
        rw [he]
        exact ⟨_, rfl⟩
    · exact ⟨_, rfl⟩

/-- Finding: the check `utf8.len < i1` at lib/unicode.fu:63 should be `<=`: a string that ends one byte short of a
sequence - every strict prefix of a two-byte character, for instance - makes the decoder read past its end. -/
theorem C21_truncated_reads_past_end (s : Str) (b : Byte) (hs : ∀ c ∈ s, c.toNat < 0x80) (hb : extraOf b.toNat = some 1) :
    codepoints (s ++ [b]) = none := by
  have hbb : b.toNat ≥ 0x80 := by
    by_contra hc
    have h1 : b.toNat < 128 := by omega
    have := (show ∀ x : Fin 128, extraOf x.val = none by decide) ⟨b.toNat, h1⟩
    rw [hb] at this; exact absurd this (by simp)
  suffices H : ∀ n i, s.length - i = n → i ≤ s.length → codepointsFrom (s ++ [b]) i = none from H _ 0 rfl (by omega)
  intro n
  induction n with
  | zero =>
    intro i hn hi
    have hi' : i = s.length := by omega
    subst hi'
    have hstep : stepAt (s ++ [b]) s.length = none := by
      unfold stepAt
      rw [List.getElem?_append_right (by omega), Nat.sub_self]
      simp only [List.getElem?_cons_zero]
      rw [if_pos hbb, hb]
      simp only
      rw [if_neg (by simp), contLoop]
      rw [List.getElem?_eq_none (by simp)]
    rw [codepointsFrom, if_pos (by simp)]
    split
    · rfl
    · next e => rw [hstep] at e; exact absurd e (by simp)
  | succ n ih =>
    intro i hn hi
    have hlt : i < s.length := by omega
    have hstep : stepAt (s ++ [b]) i = some (i, .each s[i].toNat i) := by
      unfold stepAt
      rw [List.getElem?_append_left hlt, List.getElem?_eq_getElem hlt]
      simp only
      rw [if_neg (by have := hs s[i] (List.getElem_mem hlt); omega)]
    rw [codepointsFrom, if_pos (by simp; omega)]
    split
    · rfl
    · next i' ev e =>
      rw [hstep] at e
      injection e with e
      injection e with e1 e2
      subst e1 e2
      rw [ih (i + 1) (by omega) (by omega)]

/-- Finding: after a malformed sequence the decoder also skips the byte that broke it: in `C3 41` the letter `A` is never
reported. -/
theorem C21_error_swallows_next : codepoints [0xc3#8, ch 'A', ch 'B'] = some [.error 0, .each 66 2] := by decide +kernel

/-- Finding: overlong encodings are accepted: `C0 80` decodes to the same text as the byte `00`. -/
theorem C21_overlong_accepted : (codepoints [0xc0#8, 0x80#8]).map seen = (codepoints [0x00#8]).map seen := by
  decide +kernel

example : ∀ p, ¬ CutAt (str "ok" ++ [0xe4#8, 0xb8#8] ++ str "!") p := by
  rintro p ⟨b, extra, h1, h2, h3⟩
  have hp := (extraOf_pos h2)
  have hl : (str "ok" ++ [0xe4#8, 0xb8#8] ++ str "!").length = 5 := by decide
  rw [hl] at h3
  have : p = 2 ∨ p = 3 ∨ p = 4 := by omega
  rcases this with rfl | rfl | rfl
  · have : b = 0xe4#8 := by simpa [str] using h1.symm
    subst this; revert h2; have : extra = 3 := by omega
    subst this; decide
  · have : b = 0xb8#8 := by simpa [str] using h1.symm
    subst this; revert h2; have : extra = 2 := by omega
    subst this; decide
  · have : b = ch '!' := by simpa [str] using h1.symm
    subst this; revert h2; have : extra = 1 := by omega
    subst this; decide

end Verif.Unicode
