import Verif.Intlit
import Mathlib.Tactic.SplitIfs
import Mathlib.Tactic.Ring
import Mathlib.Tactic.Linarith
/-!
# Integer literals parse exactly or are rejected (C29)
-/
namespace Verif.Intlit
open Verif

/-! ## Specification -/

/-- A literal as its writer sees it: a sign, one of the four bases, digits and separators (`none` is `_`, `some d` the
digit `d`), and an optional `u`. -/
structure Lit where
  sign : Option Bool          -- `some true` is `-`, `some false` is `+`
  base : Nat
  digits : List (Option Nat)
  u : Bool

/-- The digits are digits of the base, and there is at least one character. -/
def Lit.Valid (l : Lit) : Prop :=
  (l.base = 10 ∨ l.base = 16 ∨ l.base = 8 ∨ l.base = 2) ∧ (∀ d, some d ∈ l.digits → d < l.base) ∧ l.digits ≠ []

def digitChar (d : Nat) : Byte := if d < 10 then BitVec.ofNat 8 (48 + d) else BitVec.ofNat 8 (97 + (d - 10))

def Lit.signText (l : Lit) : Str := match l.sign with | none => [] | some true => [ch '-'] | some false => [ch '+']
def Lit.prefixText (l : Lit) : Str :=
  if l.base = 16 then str "0x" else if l.base = 8 then str "0o" else if l.base = 2 then str "0b" else []
def Lit.digitText (l : Lit) : Str := l.digits.map fun d => match d with | none => ch '_' | some d => digitChar d
/-- The text of a literal. -/
def Lit.text (l : Lit) : Str := l.signText ++ (l.prefixText ++ (l.digitText ++ if l.u then [ch 'u'] else []))

/-- The mathematical value of the digits, most significant first. -/
def value (base : Nat) : List (Option Nat) → Nat → Nat
  | [], acc => acc
  | none :: ds, acc => value base ds acc
  | some d :: ds, acc => value base ds (acc * base + d)

def Lit.abs (l : Lit) : Nat := value l.base l.digits 0
def Lit.negative (l : Lit) : Bool := l.sign = some true
/-- The integer that the literal denotes. -/
def Lit.val (l : Lit) : Int := if l.negative then -(l.abs : Int) else l.abs

/-- The integers of an `n`-bit two's complement, respectively unsigned, type. -/
def FitsI (n : Nat) (v : Int) : Prop := -(2 : Int) ^ (n - 1) ≤ v ∧ v < (2 : Int) ^ (n - 1)
def FitsU (n : Nat) (v : Int) : Prop := 0 ≤ v ∧ v < (2 : Int) ^ n

/-! ## The digit loop -/

theorem digitChar_ne (d : Nat) (h : d < 16) : digitChar d ≠ ch '_' ∧ digitChar d ≠ ch 'u' ∧ digitChar d ≠ ch 'x' ∧
    digitChar d ≠ ch 'o' ∧ digitChar d ≠ ch '-' ∧ digitChar d ≠ ch '+' :=
  (show ∀ d : Fin 16, digitChar d.val ≠ ch '_' ∧ digitChar d.val ≠ ch 'u' ∧ digitChar d.val ≠ ch 'x' ∧
    digitChar d.val ≠ ch 'o' ∧ digitChar d.val ≠ ch '-' ∧ digitChar d.val ≠ ch '+' by decide) ⟨d, h⟩

theorem digitChar_val (d : Nat) (h : d < 16) :
    (if Byte.lt (digitChar d) (ch 'a') then (digitChar d).zeroExtend 64 - (ch '0').zeroExtend 64
      else (digitChar d).zeroExtend 64 - (ch 'a').zeroExtend 64 + 10#64) = BitVec.ofNat 64 d :=
  (show ∀ d : Fin 16, (if Byte.lt (digitChar d.val) (ch 'a') then (digitChar d.val).zeroExtend 64 - (ch '0').zeroExtend 64
      else (digitChar d.val).zeroExtend 64 - (ch 'a').zeroExtend 64 + 10#64) = BitVec.ofNat 64 d.val by decide) ⟨d, h⟩

theorem value_ge (base : Nat) (hb : 0 < base) (ds : List (Option Nat)) (acc : Nat) : acc ≤ value base ds acc := by
  induction ds generalizing acc with
  | nil => exact Nat.le_refl _
  | cons d ds ih =>
    cases d with
    | none => exact ih acc
    | some d =>
      refine Nat.le_trans ?_ (ih (acc * base + d))
      have : acc * 1 ≤ acc * base := Nat.mul_le_mul_left _ hb
      omega

theorem value_append (base : Nat) (ds es : List (Option Nat)) (acc : Nat) :
    value base (ds ++ es) acc = value base es (value base ds acc) := by
  induction ds generalizing acc with
  | nil => rfl
  | cons d ds ih => cases d <;> exact ih _

theorem step_overflow (last base d : Nat) (hb : 2 ≤ base) (hb' : base < 2 ^ 64) (_hl : last < 2 ^ 64) (hd : d < base) :
    (last = (last * base + d) % 2 ^ 64 / base) ↔ last * base + d < 2 ^ 64 := by
  constructor
  · intro h
    by_contra hge
    have hge : 2 ^ 64 ≤ last * base + d := Nat.le_of_not_lt hge
    have h1 : last * base ≤ (last * base + d) % 2 ^ 64 := by
      have := Nat.div_mul_le_self ((last * base + d) % 2 ^ 64) base
      rw [← h] at this; exact this
    have h2 : (last * base + d) % 2 ^ 64 ≤ last * base + d - 2 ^ 64 := by
      rw [Nat.mod_eq_sub_mod hge]
      exact Nat.mod_le _ _
    have : (2 : Nat) ^ 64 = 18446744073709551616 := by norm_num
    omega
  · intro h
    rw [Nat.mod_eq_of_lt h, Nat.mul_comm, Nat.mul_add_div (by omega), Nat.div_eq_of_lt hd, Nat.add_zero]

/-- The state of the loop after reading `ds`: exact while the value fits, in error for ever after. -/
def Tracks (base : Nat) (ds : List (Option Nat)) (s : BitVec 64 × Option Msg) : Prop :=
  (value base ds 0 < 2 ^ 64 → s = (BitVec.ofNat 64 (value base ds 0), none)) ∧
  (2 ^ 64 ≤ value base ds 0 → s.2 = some .overflow)

theorem digit_loop (base : Nat) (hb : base = 10 ∨ base = 16 ∨ base = 8 ∨ base = 2) (ds : List (Option Nat))
    (hd : ∀ d, some d ∈ ds → d < base) (txt : Str)
    (ht : txt = ds.map fun d => match d with | none => ch '_' | some d => digitChar d) :
    ∃ s, forUp 0 txt.length (0#64, none) (digitStep txt (BitVec.ofNat 64 base)) = some s ∧ Tracks base ds s := by
  have hlen : txt.length = ds.length := by rw [ht]; simp
  obtain ⟨s, e, h⟩ := forUp_inv (lo := 0) (hi := txt.length) (s := ((0#64, none) : BitVec 64 × Option Msg))
    (body := digitStep txt (BitVec.ofNat 64 base)) (fun i s => Tracks base (ds.take i) s) (by omega)
    ⟨fun _ => by simp [value], fun h => absurd h (by simp [value])⟩ (by
      intro k s _ hk hs
      have hk' : k < ds.length := by omega
      rw [List.take_succ_eq_append_getElem hk']
      have hc : txt[k]? = some (match ds[k] with | none => ch '_' | some d => digitChar d) := by
        rw [ht]; simp [hk']
      unfold digitStep
      rw [hc]
      simp only [Option.bind_eq_bind, Option.bind_some]
      unfold Tracks at hs ⊢
      rw [value_append]
      cases hdk : ds[k] with
      | none => refine ⟨s, ?_, hs⟩; simp
      | some d =>
        have hdb : d < base := hd d (by rw [← hdk]; exact List.getElem_mem hk')
        have hd16 : d < 16 := by omega
        simp only
        rw [if_neg (digitChar_ne d hd16).1, digitChar_val d hd16]
        refine ⟨_, rfl, ?_⟩
        show (value base (ds.take k) 0 * base + d < _ → _) ∧ (_ ≤ value base (ds.take k) 0 * base + d → _)
        generalize value base (ds.take k) 0 = v at hs
        have h264 : (2 : Nat) ^ 64 = 18446744073709551616 := by norm_num
        by_cases hv : v < 2 ^ 64
        · rw [hs.1 hv]
          simp only [orErr]
          have e1 : (BitVec.ofNat 64 v * BitVec.ofNat 64 base + BitVec.ofNat 64 d) = BitVec.ofNat 64 (v * base + d) := by
            rw [BitVec.ofNat_add, BitVec.ofNat_mul]
          have e2 : (BitVec.ofNat 64 v = (BitVec.ofNat 64 (v * base + d)) / BitVec.ofNat 64 base) ↔ v * base + d < 2 ^ 64 := by
            rw [← step_overflow v base d (by omega) (by omega) hv hdb, ← BitVec.toNat_inj, BitVec.toNat_udiv,
              BitVec.toNat_ofNat, BitVec.toNat_ofNat, BitVec.toNat_ofNat, Nat.mod_eq_of_lt hv,
              Nat.mod_eq_of_lt (show base < 2 ^ 64 by omega)]
          rw [e1]
          refine ⟨fun h => ?_, fun h => ?_⟩
          · show (_, _) = (BitVec.ofNat 64 (v * base + d), none)
            rw [if_neg]
            simpa only [ne_eq, decide_eq_true_eq, not_not] using e2.2 h
          · rw [if_pos]
            simp only [ne_eq, decide_eq_true_eq]
            intro h'
            have := e2.1 h'
            omega
        · have hge : 2 ^ 64 ≤ v := by omega
          have : v * 2 ≤ v * base := Nat.mul_le_mul_left _ (by omega)
          rw [hs.2 hge]
          exact ⟨fun h => by omega, fun _ => rfl⟩)
  refine ⟨s, e, ?_⟩
  rw [hlen, List.take_length] at h
  exact h

/-! ## Cutting the text -/

/-- The parse of a literal's text, before the sizes. -/
theorem parse_text (l : Lit) (hv : l.Valid) : ∃ s, Tracks l.base l.digits s ∧
    parse l.text = some (mk s.1 l.negative s.2 l.u l.negative l.base) := by
  obtain ⟨hb, hd, hne⟩ := hv
  obtain ⟨s, e, ht⟩ := digit_loop l.base hb l.digits hd l.digitText rfl
  refine ⟨s, ht, ?_⟩
  -- the first character
  obtain ⟨k0, ks, hdt⟩ : ∃ k0 ks, l.digitText = k0 :: ks := by
    unfold Lit.digitText
    cases h : l.digits with
    | nil => exact absurd h hne
    | cons d ds => exact ⟨_, _, rfl⟩
  -- no character of the digits is a marker
  have chars : ∀ c ∈ l.digitText, c ≠ ch 'u' ∧ c ≠ ch 'x' ∧ c ≠ ch 'o' ∧ (l.base = 10 → c ≠ ch 'b') ∧ c ≠ ch '-' ∧ c ≠ ch '+' := by
    intro c hc
    unfold Lit.digitText at hc
    obtain ⟨d, hdm, rfl⟩ := List.mem_map.1 hc
    cases d with
    | none => exact ⟨by decide, by decide, by decide, fun _ => by decide, by decide, by decide⟩
    | some d =>
      have hdb := hd d hdm
      have h16 : d < 16 := by omega
      refine ⟨(digitChar_ne d h16).2.1, (digitChar_ne d h16).2.2.1, (digitChar_ne d h16).2.2.2.1, fun h10 => ?_, (digitChar_ne d h16).2.2.2.2.1,
        (digitChar_ne d h16).2.2.2.2.2⟩
      exact (show ∀ d : Fin 10, digitChar d.val ≠ ch 'b' by decide) ⟨d, by omega⟩
  -- everything after the sign
  let rest : Str := l.prefixText ++ (l.digitText ++ if l.u then [ch 'u'] else [])
  have hrest : ∃ c t, rest = c :: t ∧ c ≠ ch '-' ∧ c ≠ ch '+' := by
    show ∃ c t, l.prefixText ++ _ = c :: t ∧ _
    generalize (if l.u then [ch 'u'] else []) = suf
    unfold Lit.prefixText
    split_ifs
    · exact ⟨ch '0', _, rfl, by decide, by decide⟩
    · exact ⟨ch '0', _, rfl, by decide, by decide⟩
    · exact ⟨ch '0', _, rfl, by decide, by decide⟩
    · rw [hdt]
      have := chars k0 (by rw [hdt]; simp)
      exact ⟨k0, _, rfl, this.2.2.2.2.1, this.2.2.2.2.2⟩
  have hsign : ∃ c0, l.text[0]? = some c0 ∧
      l.text.drop (if (if c0 = ch '-' ∨ c0 = ch '+' then c0 else 0#8) ≠ 0#8 then 1 else 0) = rest ∧
      decide ((if c0 = ch '-' ∨ c0 = ch '+' then c0 else 0#8) = ch '-') = l.negative := by
    unfold Lit.text Lit.negative Lit.signText
    obtain ⟨c, t, hr, h1, h2⟩ := hrest
    cases hs : l.sign with
    | none =>
      refine ⟨c, ?_, ?_, ?_⟩
      · show rest[0]? = _; rw [hr]; rfl
      · rw [if_neg (show ¬ (c = ch '-' ∨ c = ch '+') from fun h => h.elim h1 h2), if_neg (by simp)]; rfl
      · rw [if_neg (show ¬ (c = ch '-' ∨ c = ch '+') from fun h => h.elim h1 h2)]; decide
    | some b =>
      cases b with
      | true => exact ⟨ch '-', rfl, by rw [if_pos (Or.inl rfl), if_pos (by decide)]; rfl, by decide⟩
      | false => exact ⟨ch '+', rfl, by rw [if_pos (Or.inr rfl), if_pos (by decide)]; rfl, by decide⟩
  obtain ⟨c0, hc0, hdrop, hneg⟩ := hsign
  -- the prefix
  let vs : Str := l.digitText ++ if l.u then [ch 'u'] else []
  have hprefix : ∃ c p : Byte, cPrefix rest = some c ∧ prefixOf rest c = some p ∧ rest.drop (if p ≠ 0#8 then 2 else 0) = vs ∧
      (if p = ch 'x' then 16#64 else if p = ch 'o' then 8#64 else if p = ch 'b' then 2#64 else 10#64) = BitVec.ofNat 64 l.base := by
    show ∃ c p : Byte, cPrefix (l.prefixText ++ vs) = some c ∧ prefixOf (l.prefixText ++ vs) c = some p ∧
      (l.prefixText ++ vs).drop _ = vs ∧ _
    unfold Lit.prefixText
    rcases hb with hb | hb | hb | hb <;> rw [hb]
    · simp only [show ¬ (10 = 16) by omega, show ¬ (10 = 8) by omega, show ¬ (10 = 2) by omega, if_false, List.nil_append]
      have h1 : ∃ c : Byte, cPrefix vs = some c ∧ ¬ (c = ch 'x' ∨ c = ch 'o' ∨ c = ch 'b') := by
        unfold cPrefix
        split_ifs with hl
        · refine ⟨vs[1], List.getElem?_eq_getElem hl, ?_⟩
          have hm : vs[1] ∈ vs := List.getElem_mem hl
          rcases List.mem_append.1 hm with hm | hm
          · have := chars _ hm
            exact fun h => h.elim this.2.1 (fun h => h.elim this.2.2.1 (this.2.2.2.1 hb))
          · split_ifs at hm
            · have : vs[1] = ch 'u' := by simpa using hm
              rw [this]; decide
            · cases hm
        · exact ⟨0#8, rfl, by decide⟩
      obtain ⟨c, hc, hn⟩ := h1
      refine ⟨c, 0#8, hc, ?_, rfl, by decide⟩
      unfold prefixOf
      rw [if_neg hn]
    · refine ⟨ch 'x', ch 'x', ?_, by simp [prefixOf, str], ?_, by decide⟩
      · simp [cPrefix, str]
      · rw [if_pos (by decide)]; rfl
    · refine ⟨ch 'o', ch 'o', ?_, by simp [prefixOf, str], ?_, by decide⟩
      · simp [cPrefix, str]
      · rw [if_pos (by decide)]; rfl
    · refine ⟨ch 'b', ch 'b', ?_, by simp [prefixOf, str], ?_, by decide⟩
      · simp [cPrefix, str]
      · rw [if_pos (by decide)]; rfl
  obtain ⟨cp, p, hcp, hp, hvs, hbase⟩ := hprefix
  -- the suffix
  have hvne : vs.length ≠ 0 := by
    show (l.digitText ++ _).length ≠ 0
    rw [hdt]; simp
  have hsuf : ∃ c : Byte, cSuffix vs = some c ∧
      vs.take (vs.length - (if (if c = ch 'u' then c else 0#8) ≠ 0#8 then 1 else 0)) = l.digitText ∧
      decide ((if c = ch 'u' then c else 0#8) = ch 'u') = l.u ∧ (if c = ch 'u' then c else 0#8) ≠ ch 'i' := by
    have hsv : cSuffix vs = vs[vs.length - 1]? := by unfold cSuffix; rw [if_pos hvne]
    rw [hsv]
    show ∃ c : Byte, (l.digitText ++ _)[(l.digitText ++ _).length - 1]? = some c ∧ (l.digitText ++ _).take ((l.digitText ++ _).length - _) = _ ∧ _ ∧ _
    cases hu : l.u with
    | true =>
      refine ⟨ch 'u', by simp, ?_, by decide, by decide⟩
      rw [if_pos rfl, if_pos rfl, if_pos (by decide)]; simp
    | false =>
      have hl : l.digitText.length ≠ 0 := by rw [hdt]; simp
      simp only [Bool.false_eq_true, if_false, List.append_nil]
      have hlt : l.digitText.length - 1 < l.digitText.length := by omega
      have hc := chars _ (List.getElem_mem hlt)
      refine ⟨_, List.getElem?_eq_getElem hlt, ?_, ?_, ?_⟩
      · rw [if_neg hc.1, if_neg (by simp)]; simp
      · rw [if_neg hc.1]; decide
      · rw [if_neg hc.1]; decide
  obtain ⟨c1, hc1, htake, hu, hi⟩ := hsuf
  unfold parse
  rw [hc0]
  simp only [Option.bind_eq_bind, Option.bind_some, hdrop, hcp, hp, hvs, hc1, htake]
  rw [hbase, e]
  simp only [Option.bind_some]
  rw [hneg, hu, show decide ((if c1 = ch 'u' then c1 else 0#8) = ch 'i') = false by simpa using hi, Bool.or_false]
  rw [BitVec.toNat_ofNat, Nat.mod_eq_of_lt (by
    have : (2 : Nat) ^ 64 = 18446744073709551616 := by norm_num
    omega)]

/-! ## Sizes -/

theorem lt_iff (a : BitVec 64) (n : Nat) (h : n < 2 ^ 64) : a < BitVec.ofNat 64 n ↔ a.toNat < n := by
  rw [BitVec.lt_def, BitVec.toNat_ofNat, Nat.mod_eq_of_lt h]

/-- The sizes in terms of natural numbers. -/
theorem mk_sizes (a : Nat) (ha : a < 2 ^ 64) (neg : Bool) (e : Option Msg) (u sg : Bool) (b : Nat) :
    (mk (BitVec.ofNat 64 a) neg e u sg b).minsizeI = (if (if neg then a - 1 else a) < 0x80 then 8
      else if (if neg then a - 1 else a) < 0x8000 then 16
      else if (if neg then a - 1 else a) < 0x80000000 then 32
      else if (if neg then a - 1 else a) < 0x8000000000000000 then 64 else 128) ∧
    (mk (BitVec.ofNat 64 a) neg e u sg b).minsizeU = (if neg then 255 else if a < 0x100 then 8 else if a < 0x10000 then 16
      else if a < 0x100000000 then 32 else 64) := by
  have h264 : (2 : Nat) ^ 64 = 18446744073709551616 := by norm_num
  have hnn : (BitVec.ofNat 64 a).toNat = a := by rw [BitVec.toNat_ofNat, Nat.mod_eq_of_lt ha]
  have hs : ∀ k : Nat, k < 2 ^ 64 →
      ((if neg && BitVec.ofNat 64 a ≠ 0#64 then BitVec.ofNat 64 a - 1#64 else BitVec.ofNat 64 a) < BitVec.ofNat 64 k ↔
        (if neg then a - 1 else a) < k) := by
    intro k hk
    rw [lt_iff _ _ hk]
    cases neg with
    | false => simp [hnn]
    | true =>
      by_cases h0 : a = 0
      · rw [h0]; simp
      · have hne : BitVec.ofNat 64 a ≠ 0#64 := by
          intro h; have := congrArg BitVec.toNat h; rw [hnn] at this; exact h0 this
        rw [if_pos (by simpa using hne), if_pos rfl, BitVec.toNat_sub, hnn]
        rw [show (1#64).toNat = 1 from rfl]
        rw [show 2 ^ 64 - 1 + a = (a - 1) + 2 ^ 64 by omega, Nat.add_mod_right, Nat.mod_eq_of_lt (by omega)]
  refine ⟨?_, ?_⟩
  · show (if (if neg && BitVec.ofNat 64 a ≠ 0#64 then BitVec.ofNat 64 a - 1#64 else BitVec.ofNat 64 a) < BitVec.ofNat 64 0x80 then 8 else
      if (if neg && BitVec.ofNat 64 a ≠ 0#64 then BitVec.ofNat 64 a - 1#64 else BitVec.ofNat 64 a) < BitVec.ofNat 64 0x8000 then 16 else
      if (if neg && BitVec.ofNat 64 a ≠ 0#64 then BitVec.ofNat 64 a - 1#64 else BitVec.ofNat 64 a) < BitVec.ofNat 64 0x80000000 then 32 else
      if (if neg && BitVec.ofNat 64 a ≠ 0#64 then BitVec.ofNat 64 a - 1#64 else BitVec.ofNat 64 a) < BitVec.ofNat 64 0x8000000000000000 then 64 else 128) = _
    rw [if_congr (hs 0x80 (by norm_num)) rfl rfl, if_congr (hs 0x8000 (by norm_num)) rfl rfl,
      if_congr (hs 0x80000000 (by norm_num)) rfl rfl, if_congr (hs 0x8000000000000000 (by norm_num)) rfl rfl]
  · show (if neg then 255 else if BitVec.ofNat 64 a < BitVec.ofNat 64 0x100 then 8 else
      if BitVec.ofNat 64 a < BitVec.ofNat 64 0x10000 then 16 else if BitVec.ofNat 64 a < BitVec.ofNat 64 0x100000000 then 32 else 64) = _
    rw [if_congr (lt_iff _ 0x100 (by norm_num)) rfl rfl, if_congr (lt_iff _ 0x10000 (by norm_num)) rfl rfl,
      if_congr (lt_iff _ 0x100000000 (by norm_num)) rfl rfl, hnn]

theorem mk_error (a : BitVec 64) (neg : Bool) (e : Option Msg) (u sg : Bool) (b : Nat) :
    (mk a neg e u sg b).error =
      if sg then orErr (orErr e (sg && u) .ambiguous) (decide ((mk a neg e u sg b).minsizeI > 64)) .oversizedSigned
      else orErr (orErr e (sg && u) .ambiguous) (decide ((mk a neg e u sg b).minsizeU > 64)) .oversizedUnsigned := rfl

/-- **C29.** For every literal: the parse never faults; it reports no error exactly when the denoted integer fits in 64
bits - signed bits if there is a minus, unsigned bits if not - and the minus is not combined with a `u`; and then the
parsed magnitude is the mathematical one. -/
theorem C29_exact_or_rejected (l : Lit) (hv : l.Valid) : ∃ r, parse l.text = some r ∧
    r.base = l.base ∧ r.negative = l.negative ∧ r.unsigned = l.u ∧
    (r.error = none ↔ (if l.negative then FitsI 64 l.val ∧ l.u = false else FitsU 64 l.val)) ∧
    (r.error = none → r.absval.toNat = l.abs) := by
  obtain ⟨s, ht, hp⟩ := parse_text l hv
  refine ⟨_, hp, rfl, rfl, rfl, ?_⟩
  have h264 : (2 : Nat) ^ 64 = 18446744073709551616 := by norm_num
  have i264 : (2 : Int) ^ 64 = 18446744073709551616 := by norm_num
  have i263 : (2 : Int) ^ (64 - 1) = 9223372036854775808 := by norm_num
  unfold Tracks at ht
  change (l.abs < 2 ^ 64 → s = (BitVec.ofNat 64 l.abs, none)) ∧ (2 ^ 64 ≤ l.abs → s.2 = some .overflow) at ht
  unfold Lit.val
  by_cases habs : l.abs < 2 ^ 64
  · rw [ht.1 habs]
    have hn : (BitVec.ofNat 64 l.abs).toNat = l.abs := by rw [BitVec.toNat_ofNat, Nat.mod_eq_of_lt habs]
    refine ⟨?_, fun _ => hn⟩
    cases hneg : l.negative with
    | false =>
      rw [mk_error, (mk_sizes l.abs habs _ _ _ _ _).2]
      simp only [orErr, Bool.false_and, Bool.false_eq_true, if_false]
      constructor
      · intro _
        refine ⟨by omega, ?_⟩
        rw [i264]; omega
      · intro _
        rw [if_neg]
        simp only [decide_eq_true_eq]
        split_ifs <;> omega
    | true =>
      simp only [if_true]
      cases hu : l.u with
      | true =>
        rw [mk_error]
        simp [orErr]
      | false =>
        rw [mk_error, (mk_sizes l.abs habs _ _ _ _ _).1]
        simp only [orErr, Bool.and_false, Bool.false_eq_true, if_false, if_true]
        unfold FitsI
        rw [i263]
        constructor
        · intro h
          refine ⟨⟨?_, by omega⟩, trivial⟩
          by_contra hc
          have e1 : ¬ (l.abs - 1 < 0x80) := by omega
          have e2 : ¬ (l.abs - 1 < 0x8000) := by omega
          have e3 : ¬ (l.abs - 1 < 0x80000000) := by omega
          have e4 : ¬ (l.abs - 1 < 0x8000000000000000) := by omega
          rw [if_neg e1, if_neg e2, if_neg e3, if_neg e4] at h
          simp at h
        · rintro ⟨⟨h, _⟩, _⟩
          rw [if_neg]
          have e4 : l.abs - 1 < 0x8000000000000000 := by omega
          simp only [decide_eq_true_eq]
          split_ifs <;> omega
  · have hov := ht.2 (by omega)
    have he : (mk s.1 l.negative s.2 l.u l.negative l.base).error ≠ none := by
      rw [hov]
      unfold mk
      cases l.negative <;> simp [orErr]
    refine ⟨⟨fun h => absurd h he, fun h => ?_⟩, fun h => absurd h he⟩
    exfalso
    cases hneg : l.negative with
    | false =>
      rw [hneg] at h
      simp only [Bool.false_eq_true, if_false] at h
      have := h.2
      rw [i264] at this; omega
    | true =>
      rw [hneg] at h
      simp only [if_true] at h
      have := h.1.1
      rw [i263] at this; omega

/-- **C29 (sizes).** For every accepted literal, the reported minimal sizes are the smallest: an `n`-bit signed
(unsigned) type holds the denoted integer exactly when `n` is at least the reported size.  The exception is `-0`, which
is reported to fit in no unsigned type. -/
theorem C29_min_sizes (l : Lit) (hv : l.Valid) (r : Intlit) (hr : parse l.text = some r) (hok : r.error = none)
    (n : Nat) (hn : n = 8 ∨ n = 16 ∨ n = 32 ∨ n = 64) :
    (FitsI n l.val ↔ r.minsizeI ≤ n) ∧ (¬ (l.negative = true ∧ l.abs = 0) → (FitsU n l.val ↔ r.minsizeU ≤ n)) := by
  obtain ⟨s, ht, hp⟩ := parse_text l hv
  obtain ⟨r', hr', -, -, -, hacc, habs⟩ := C29_exact_or_rejected l hv
  rw [hr] at hr' hp
  cases hr'
  have h264 : (2 : Nat) ^ 64 = 18446744073709551616 := by norm_num
  have hlt : l.abs < 2 ^ 64 := by
    have := habs hok
    rw [← this]; exact r.absval.isLt
  unfold Tracks at ht
  change (l.abs < 2 ^ 64 → s = (BitVec.ofNat 64 l.abs, none)) ∧ (2 ^ 64 ≤ l.abs → s.2 = some .overflow) at ht
  rw [ht.1 hlt] at hp
  injection hp with hp
  have hI := (mk_sizes l.abs hlt l.negative none l.u l.negative l.base).1
  have hU := (mk_sizes l.abs hlt l.negative none l.u l.negative l.base).2
  rw [← show r = _ from hp] at hI hU
  have p7 : (2 : Int) ^ 7 = 128 := by norm_num
  have p15 : (2 : Int) ^ 15 = 32768 := by norm_num
  have p31 : (2 : Int) ^ 31 = 2147483648 := by norm_num
  have p63 : (2 : Int) ^ 63 = 9223372036854775808 := by norm_num
  have p8 : (2 : Int) ^ 8 = 256 := by norm_num
  have p16 : (2 : Int) ^ 16 = 65536 := by norm_num
  have p32 : (2 : Int) ^ 32 = 4294967296 := by norm_num
  have p64 : (2 : Int) ^ 64 = 18446744073709551616 := by norm_num
  rw [hI, hU]
  unfold FitsI FitsU Lit.val
  cases hneg : l.negative with
  | false =>
    simp only [Bool.false_eq_true, if_false, false_and, not_false_eq_true, forall_const]
    rcases hn with rfl | rfl | rfl | rfl <;>
      simp only [show 8 - 1 = 7 from rfl, show 16 - 1 = 15 from rfl, show 32 - 1 = 31 from rfl, show 64 - 1 = 63 from rfl,
        p7, p15, p31, p63, p8, p16, p32, p64] <;>
      constructor <;> (try split_ifs) <;> omega
  | true =>
    simp only [if_true, true_and]
    rcases hn with rfl | rfl | rfl | rfl <;>
      simp only [show 8 - 1 = 7 from rfl, show 16 - 1 = 15 from rfl, show 32 - 1 = 31 from rfl, show 64 - 1 = 63 from rfl,
        p7, p15, p31, p63, p8, p16, p32, p64] <;>
      constructor <;> (try split_ifs) <;> omega

/-- A non-negative integer that a binary float with `p` significant bits holds exactly (exponent range aside). -/
def FitsF (p v : Nat) : Prop := ∃ m e : Nat, m < 2 ^ p ∧ v = m * 2 ^ e

/-- **C29 (floats).** A literal reported to need a 32-bit float is held by it exactly. -/
theorem C29_min_float (l : Lit) (hv : l.Valid) (r : Intlit) (hr : parse l.text = some r) (hok : r.error = none)
    (h32 : r.minsizeF = 32) : FitsF 24 l.abs := by
  obtain ⟨s, ht, hp⟩ := parse_text l hv
  obtain ⟨r', hr', -, -, -, -, habs⟩ := C29_exact_or_rejected l hv
  rw [hr] at hr' hp
  cases hr'
  injection hp with hp
  refine ⟨l.abs, 0, ?_, by simp⟩
  rw [← habs hok]
  have : r.minsizeF = if r.absval < BitVec.ofNat 64 0x1000000 then 32 else 64 := by rw [hp]; rfl
  rw [this] at h32
  split_ifs at h32 with h
  · rw [lt_iff _ _ (by norm_num)] at h
    norm_num at h ⊢
    exact h
  · exact absurd h32 (by omega)

/-- Finding: 9007199254740993 = 2^53 + 1 is reported to fit a 64-bit float, which cannot hold it. -/
theorem C29_float64_inexact : (parse (str "9007199254740993")).map (fun r => (r.minsizeF, r.error)) = some (64, none) ∧
    ¬ FitsF 53 9007199254740993 := by
  refine ⟨by decide +kernel, ?_⟩
  rintro ⟨m, e, hm, h⟩
  cases e with
  | zero => norm_num at hm h; omega
  | succ e =>
    have : 9007199254740993 % 2 = 1 := by norm_num
    rw [h, Nat.pow_succ, ← Nat.mul_assoc, Nat.mul_mod_left] at this
    exact absurd this (by norm_num)

/-- Concrete literals. -/
example : (Lit.mk (some true) 10 ((List.replicate 3 none).foldr (fun x l => some 1 :: x :: l) [some 2]) false).text = str "-1_1_1_2" := by
  decide +kernel
example : (Lit.mk none 16 [some 15, some 15, none, some 10] true).Valid ∧
    (Lit.mk none 16 [some 15, some 15, none, some 10] true).text = str "0xff_au" := by
  refine ⟨⟨Or.inr (Or.inl rfl), ?_, by simp⟩, by decide +kernel⟩
  intro d hd
  simp only [List.mem_cons, Option.some.injEq, reduceCtorEq, List.not_mem_nil, or_false, false_or] at hd
  show d < 16
  omega
example : (parse (str "18446744073709551616")).map (·.error) = some (some .overflow) ∧
    (parse (str "18446744073709551615")).map (fun r => (r.error, r.minsizeU)) = some (none, 64) ∧
    (parse (str "-9223372036854775808")).map (fun r => (r.error, r.minsizeI)) = some (none, 64) := by decide +kernel

end Verif.Intlit
