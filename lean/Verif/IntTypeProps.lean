import Verif.IntType
import Verif.IntlitProps
/-! # The type of an int literal: it holds the value, and it is the one wanted or the smallest (C106) -/
namespace Verif.IntType
open Verif.Intlit

/-! ## Specification -/

/-- the integers a type holds without a loss -/
def Prim.Holds : Prim → Int → Prop
  | .i8, v => FitsI 8 v
  | .i16, v => FitsI 16 v
  | .i32, v => FitsI 32 v
  | .i64, v => FitsI 64 v
  | .u8, v => FitsU 8 v
  | .u16, v => FitsU 16 v
  | .u32, v => FitsU 32 v
  | .u64, v => FitsU 64 v
  | .f32, v => FitsF 24 v.natAbs
  | .f64, v => FitsF 53 v.natAbs

/-- a literal that is a number of 64 bits: with a minus sign a signed one, and then without the `u` -/
def Accepted (l : Lit) : Prop := if l.negative then FitsI 64 l.val ∧ l.u = false else FitsU 64 l.val

/-- a type suits a literal: it holds it; no signed type or float suits one with a `u`, and no unsigned one suits one with a minus. A float of
32 bits is held to suit those below 2^24 only, and one of 64 bits all of them. -/
def Suits (l : Lit) : Prim → Prop
  | .i8 => l.u = false ∧ FitsI 8 l.val
  | .i16 => l.u = false ∧ FitsI 16 l.val
  | .i32 => l.u = false ∧ FitsI 32 l.val
  | .i64 => l.u = false ∧ FitsI 64 l.val
  | .u8 => l.negative = false ∧ FitsU 8 l.val
  | .u16 => l.negative = false ∧ FitsU 16 l.val
  | .u32 => l.negative = false ∧ FitsU 32 l.val
  | .u64 => l.negative = false ∧ FitsU 64 l.val
  | .f32 => l.u = false ∧ l.abs < 2 ^ 24
  | .f64 => l.u = false

/-- the type wanted is made of `b` -/
def Wanted (want : Option Want) (w : Want) (b : Prim) : Prop := want = some w ∧ w.base = some b

/-- the literal is written as an unsigned one: with a `u`, or in another base than ten and with no minus -/
def WrittenUnsigned (l : Lit) : Prop := l.u = true ∨ (l.negative = false ∧ l.base ≠ 10)

/-- true is what is not zero -/
def Truth (l : Lit) (f : Facts) : Prop := f = .alwaysTrue ↔ l.val ≠ 0

/-! ## The parsed literal -/

/-- what the parse of an accepted literal says -/
theorem parsed (l : Lit) (hv : l.Valid) : ∃ r, parse l.text = some r ∧ r.base = l.base ∧ r.signed = l.negative ∧ r.unsigned = l.u ∧
    (r.error = none ↔ Accepted l) ∧
    (r.error = none →
      (∀ n, n = 8 ∨ n = 16 ∨ n = 32 ∨ n = 64 → (FitsI n l.val ↔ r.minsizeI ≤ n) ∧ (l.negative = false → (FitsU n l.val ↔ r.minsizeU ≤ n))) ∧
      (r.minsizeF ≤ 32 ↔ l.abs < 2 ^ 24) ∧ r.minsizeF ≤ 64 ∧ (r.absval ≠ 0 ↔ l.val ≠ 0)) := by
  obtain ⟨r, hr, hb, -, hu, hok, habs⟩ := C29_exact_or_rejected l hv
  obtain ⟨s, -, hp⟩ := parse_text l hv
  have e : r = mk s.1 l.negative s.2 l.u l.negative l.base := by rw [hr] at hp; exact Option.some.inj hp
  have hf : r.minsizeF = if r.absval < BitVec.ofNat 64 0x1000000 then 32 else 64 := by rw [e]; rfl
  refine ⟨r, hr, hb, by rw [e]; rfl, hu, hok, fun ho => ⟨fun n hn => ?_, ?_, ?_, ?_⟩⟩
  · obtain ⟨h1, h2⟩ := C29_min_sizes l hv r hr ho n hn
    exact ⟨h1, fun hn => h2 (fun h => by rw [hn] at h; exact absurd h.1 (by decide))⟩
  · rw [hf]
    rw [if_congr (lt_iff r.absval 0x1000000 (by decide)) rfl rfl, habs ho]
    by_cases h : l.abs < 16777216
    · rw [if_pos h]; exact ⟨fun _ => h, fun _ => by decide⟩
    · rw [if_neg h]; exact ⟨fun h' => absurd h' (by decide), fun h' => absurd h' h⟩
  · rw [hf]; split <;> decide
  · have hz : r.absval ≠ 0 ↔ l.abs ≠ 0 := by
      rw [← habs ho]
      exact ⟨fun h h' => h (BitVec.eq_of_toNat_eq h'), fun h h' => h (by rw [h']; rfl)⟩
    rw [hz]
    unfold Lit.val
    cases l.negative <;> simp

theorem of_text (l : Lit) (hv : l.Valid) (want : Option Want) : 
    (¬ Accepted l → solveInt l.text want = none) ∧
    (Accepted l → ∃ f, Truth l f ∧
      (∀ w b, Wanted want w b → Suits l b → solveInt l.text want = some (⟨w.user, b⟩, f)) ∧
      ((∀ w b, Wanted want w b → ¬ Suits l b) →
        (WrittenUnsigned l → FitsU 32 l.val → solveInt l.text want = some (⟨none, .u32⟩, f)) ∧
        (WrittenUnsigned l → ¬ FitsU 32 l.val → solveInt l.text want = some (⟨none, .u64⟩, f)) ∧
        (¬ WrittenUnsigned l → FitsI 32 l.val → solveInt l.text want = some (⟨none, .i32⟩, f)) ∧
        (¬ WrittenUnsigned l → ¬ FitsI 32 l.val → FitsI 64 l.val → solveInt l.text want = some (⟨none, .i64⟩, f)) ∧
        (¬ WrittenUnsigned l → ¬ FitsI 64 l.val → solveInt l.text want = none))) := by
  obtain ⟨r, hr, hb, hs, hu, hok, rest⟩ := parsed l hv
  refine ⟨fun h => ?_, fun h => ?_⟩
  · unfold solveInt
    rw [hr]
    simp only
    rw [if_pos (fun h' => h (hok.1 h'))]
  · have ho := hok.2 h
    obtain ⟨sizes, f32, f64, truth⟩ := rest ho
    have i8 := (sizes 8 (by simp)).1
    have i16 := (sizes 16 (by simp)).1
    have i32 := (sizes 32 (by simp)).1
    have i64 := (sizes 64 (by simp)).1
    have u8 := (sizes 8 (by simp)).2
    have u16 := (sizes 16 (by simp)).2
    have u32 := (sizes 32 (by simp)).2
    have u64 := (sizes 64 (by simp)).2
    have negu : l.negative = true → l.u = false := by
      intro hn
      unfold Accepted at h
      rw [if_pos hn] at h
      exact h.2
    refine ⟨if r.absval ≠ 0 then .alwaysTrue else .alwaysFalse, ?_, ?_, ?_⟩
    · unfold Truth
      rw [← truth]
      by_cases hz : r.absval ≠ 0
      · rw [if_pos hz]; exact ⟨fun _ => hz, fun _ => rfl⟩
      · rw [if_neg hz]; exact ⟨fun h => absurd h (by decide), fun h => absurd h hz⟩
    · rintro ⟨user, base⟩ b ⟨rfl, hwb⟩ hsu
      simp only at hwb
      subst hwb
      unfold solveInt
      rw [hr]
      simp only
      rw [if_neg (fun h' => h' ho)]
      generalize (if r.absval ≠ 0 then Facts.alwaysTrue else Facts.alwaysFalse) = f
      rw [if_pos]
      · rfl
      · rw [hu, hs]
        cases b <;> simp only [Suits] at hsu
        all_goals first
          | (rw [i8] at hsu; simp [hsu.1, hsu.2])
          | (rw [i16] at hsu; simp [hsu.1, hsu.2])
          | (rw [i32] at hsu; simp [hsu.1, hsu.2])
          | (rw [i64] at hsu; simp [hsu.1, hsu.2])
          | (have := (u8 hsu.1).1 hsu.2; simp [hsu.1, this])
          | (have := (u16 hsu.1).1 hsu.2; simp [hsu.1, this])
          | (have := (u32 hsu.1).1 hsu.2; simp [hsu.1, this])
          | (have := (u64 hsu.1).1 hsu.2; simp [hsu.1, this])
          | (rw [← f32] at hsu; simp [hsu.1, hsu.2])
          | (simp [hsu, f64])
    · intro hno
      have key : solveInt l.text want =
          ((if r.unsigned || (!r.signed && r.base ≠ 10) then
            if r.minsizeU ≤ 32 then some (⟨none, .u32⟩ : Ty) else if r.minsizeU ≤ 64 then some ⟨none, .u64⟩ else none
          else
            if r.minsizeI ≤ 32 then some ⟨none, .i32⟩ else if r.minsizeI ≤ 64 then some ⟨none, .i64⟩ else none).map fun t =>
              (t, if r.absval ≠ 0 then Facts.alwaysTrue else Facts.alwaysFalse)) := by
        unfold solveInt
        rw [hr]
        simp only
        rw [if_neg (fun h' => h' ho)]
        generalize (if r.absval ≠ 0 then Facts.alwaysTrue else Facts.alwaysFalse) = f
        rw [if_neg]
        intro hc
        rw [hu, hs] at hc
        rcases want with _ | ⟨user, _ | b⟩
        · simp at hc
        · simp at hc
        refine hno ⟨user, some b⟩ b ⟨rfl, rfl⟩ ?_
        cases b <;> simp at hc <;> simp only [Suits]
        all_goals first
          | exact ⟨hc.1, i8.2 hc.2⟩
          | exact ⟨hc.1, i16.2 hc.2⟩
          | exact ⟨hc.1, i32.2 hc.2⟩
          | exact ⟨hc.1, i64.2 hc.2⟩
          | exact ⟨hc.1, (u8 hc.1).2 hc.2⟩
          | exact ⟨hc.1, (u16 hc.1).2 hc.2⟩
          | exact ⟨hc.1, (u32 hc.1).2 hc.2⟩
          | exact ⟨hc.1, (u64 hc.1).2 hc.2⟩
          | exact ⟨hc.1, f32.1 hc.2⟩
          | exact hc.1
      have hwu : (r.unsigned || (!r.signed && r.base ≠ 10)) = true ↔ WrittenUnsigned l := by
        rw [hu, hs, hb]; unfold WrittenUnsigned; simp
      have wn : WrittenUnsigned l → l.negative = false := by
        rintro (hu' | ⟨hn, -⟩)
        · cases hn : l.negative
          · rfl
          · rw [negu hn] at hu'; exact absurd hu' (by decide)
        · exact hn
      have wf : WrittenUnsigned l → FitsU 64 l.val := by
        intro hw
        unfold Accepted at h
        rw [wn hw] at h
        exact h
      refine ⟨fun hw hf => ?_, fun hw hf => ?_, fun hw hf => ?_, fun hw hf hf' => ?_, fun hw hf => ?_⟩
      · rw [key, if_pos (hwu.2 hw), if_pos ((u32 (wn hw)).1 hf)]; rfl
      · rw [key, if_pos (hwu.2 hw), if_neg (fun h' => hf ((u32 (wn hw)).2 h')), if_pos ((u64 (wn hw)).1 (wf hw))]; rfl
      · rw [key, if_neg (fun h' => hw (hwu.1 h')), if_pos (i32.1 hf)]; rfl
      · rw [key, if_neg (fun h' => hw (hwu.1 h')), if_neg (fun h' => hf (i32.2 h')), if_pos (i64.1 hf')]; rfl
      · have n64 : ¬ r.minsizeI ≤ 64 := fun h' => hf (i64.2 h')
        rw [key, if_neg (fun h' => hw (hwu.1 h')), if_neg (fun h' => n64 (Nat.le_trans h' (by decide))), if_neg n64]; rfl

/-! ## The claims -/

/-- **C106 (wanted).** A literal that is accepted gets the type wanted - the user's own, if it is one - whenever that suits it, and it is known to be
true exactly when it is not zero. -/
theorem C106_wanted (l : Lit) (hv : l.Valid) (ha : Accepted l) (want : Option Want) (w : Want) (b : Prim) (hw : Wanted want w b)
    (hs : Suits l b) : ∃ f, Truth l f ∧ solveInt l.text want = some (⟨w.user, b⟩, f) := by
  obtain ⟨f, ht, h1, -⟩ := (of_text l hv want).2 ha
  exact ⟨f, ht, h1 w b hw hs⟩

/-- **C106 (the default).** If no type is wanted or the one wanted does not suit, one written as unsigned gets `u32`, or `u64` if that does not hold it;
another `i32`, or `i64`, and if that does not hold it there is an error. -/
theorem C106_default (l : Lit) (hv : l.Valid) (ha : Accepted l) (want : Option Want) (hno : ∀ w b, Wanted want w b → ¬ Suits l b) :
    ∃ f, Truth l f ∧
      (WrittenUnsigned l → ∃ b, solveInt l.text want = some (⟨none, b⟩, f) ∧ b.Holds l.val ∧ (b = .u32 ∨ (b = .u64 ∧ ¬ Prim.u32.Holds l.val))) ∧
      (¬ WrittenUnsigned l → FitsI 64 l.val →
        ∃ b, solveInt l.text want = some (⟨none, b⟩, f) ∧ b.Holds l.val ∧ (b = .i32 ∨ (b = .i64 ∧ ¬ Prim.i32.Holds l.val))) ∧
      (¬ WrittenUnsigned l → ¬ FitsI 64 l.val → solveInt l.text want = none) := by
  obtain ⟨f, ht, -, h2⟩ := (of_text l hv want).2 ha
  obtain ⟨a1, a2, a3, a4, a5⟩ := h2 hno
  refine ⟨f, ht, fun hw => ?_, fun hw hf => ?_, a5⟩
  · by_cases h : FitsU 32 l.val
    · exact ⟨_, a1 hw h, h, .inl rfl⟩
    · refine ⟨_, a2 hw h, ?_, .inr ⟨rfl, h⟩⟩
      have hn : l.negative = false := by
        rcases hw with hu | hw
        · cases hn : l.negative
          · rfl
          · unfold Accepted at ha; rw [if_pos hn] at ha; rw [ha.2] at hu; exact absurd hu (by decide)
        · exact hw.1
      unfold Accepted at ha
      rw [hn] at ha
      exact ha
  · by_cases h : FitsI 32 l.val
    · exact ⟨_, a3 hw h, h, .inl rfl⟩
    · exact ⟨_, a4 hw h hf, hf, .inr ⟨rfl, h⟩⟩

/-- **C106 (refused).** There is an error exactly if the literal is no number of 64 bits, or it is a decimal from 2^63 on, with no `u` and no type wanted
that suits it. -/
theorem C106_refused (l : Lit) (hv : l.Valid) (want : Option Want) : solveInt l.text want = none ↔
    (¬ Accepted l ∨ (l.u = false ∧ l.base = 10 ∧ (2 : Int) ^ 63 ≤ l.val ∧ ∀ w b, Wanted want w b → ¬ Suits l b)) := by
  by_cases ha : Accepted l
  swap
  · exact ⟨fun _ => .inl ha, fun _ => (of_text l hv want).1 ha⟩
  constructor
  · intro h
    refine .inr ?_
    have hno : ∀ w b, Wanted want w b → ¬ Suits l b := fun w b hw hs => by
      obtain ⟨f, -, e⟩ := C106_wanted l hv ha want w b hw hs
      rw [e] at h; exact absurd h (by simp)
    obtain ⟨f, -, h1, h2, -⟩ := C106_default l hv ha want hno
    have hw : ¬ WrittenUnsigned l := fun hw => by
      obtain ⟨b, e, -⟩ := h1 hw
      rw [e] at h; exact absurd h (by simp)
    have hf : ¬ FitsI 64 l.val := fun hf => by
      obtain ⟨b, e, -⟩ := h2 hw hf
      rw [e] at h; exact absurd h (by simp)
    have hn : l.negative = false := by
      cases hn : l.negative
      · rfl
      · unfold Accepted at ha; rw [if_pos hn] at ha; exact absurd ha.1 hf
    unfold WrittenUnsigned at hw
    refine ⟨?_, ?_, ?_, hno⟩
    · cases hu : l.u
      · rfl
      · exact absurd (.inl hu) hw
    · exact Decidable.byContradiction fun hb => hw (.inr ⟨hn, hb⟩)
    · unfold FitsI at hf
      unfold Lit.val at hf ⊢
      rw [hn] at hf ⊢
      simp only [Bool.false_eq_true, if_false, Nat.reduceSub] at hf ⊢
      exact Int.not_lt.1 fun h => hf ⟨Int.le_trans (by decide) (Int.natCast_nonneg _), h⟩
  · rintro (h | ⟨hu, hb, hl, hno⟩)
    · exact absurd ha h
    obtain ⟨f, -, -, -, h3⟩ := C106_default l hv ha want hno
    refine h3 ?_ (fun hf => Int.not_lt.2 hl hf.2)
    rintro (h | ⟨-, h⟩)
    · rw [hu] at h; exact absurd h (by decide)
    · exact h hb

/-- what is given suits, or is what is given by default -/
theorem given (l : Lit) (hv : l.Valid) (want : Option Want) (t : Ty) (f : Facts) (h : solveInt l.text want = some (t, f)) :
    Accepted l ∧ Truth l f ∧ ((∃ w, Wanted want w t.prim ∧ t.user = w.user ∧ Suits l t.prim) ∨
      (t.user = none ∧ t.prim.Holds l.val ∧ (∀ w b, Wanted want w b → ¬ Suits l b) ∧ (t.prim = .u32 ∨ t.prim = .u64 ∨ t.prim = .i32 ∨ t.prim = .i64))) := by
  have ha : Accepted l := Classical.byContradiction fun ha => by
    rw [(of_text l hv want).1 ha] at h; exact absurd h (by simp)
  refine ⟨ha, ?_⟩
  by_cases hs : ∃ w b, Wanted want w b ∧ Suits l b
  · obtain ⟨w, b, hw, hs⟩ := hs
    obtain ⟨f', ht, e⟩ := C106_wanted l hv ha want w b hw hs
    rw [e] at h
    cases h
    exact ⟨ht, .inl ⟨w, hw, rfl, hs⟩⟩
  · have hno : ∀ w b, Wanted want w b → ¬ Suits l b := fun w b hw hb => hs ⟨w, b, hw, hb⟩
    obtain ⟨f', ht, h1, h2, h3⟩ := C106_default l hv ha want hno
    by_cases hw : WrittenUnsigned l
    · obtain ⟨b, e, hh, hb⟩ := h1 hw
      rw [e] at h
      cases h
      refine ⟨ht, .inr ⟨rfl, hh, hno, ?_⟩⟩
      rcases hb with rfl | ⟨rfl, -⟩
      · exact .inl rfl
      · exact .inr (.inl rfl)
    · by_cases hf : FitsI 64 l.val
      · obtain ⟨b, e, hh, hb⟩ := h2 hw hf
        rw [e] at h
        cases h
        refine ⟨ht, .inr ⟨rfl, hh, hno, ?_⟩⟩
        rcases hb with rfl | ⟨rfl, -⟩
        · exact .inr (.inr (.inl rfl))
        · exact .inr (.inr (.inr rfl))
      · rw [h3 hw hf] at h; exact absurd h (by simp)

theorem natAbs_val (l : Lit) : l.val.natAbs = l.abs := by
  unfold Lit.val
  cases l.negative <;> simp

/-- **C106 (holds).** The type given holds the value, unless it is the float of 64 bits and the value goes over 2^53. -/
theorem C106_holds_partial (l : Lit) (hv : l.Valid) (want : Option Want) (t : Ty) (f : Facts) (h : solveInt l.text want = some (t, f))
    (hf : t.prim = .f64 → l.abs ≤ 2 ^ 53) : t.prim.Holds l.val := by
  obtain ⟨-, -, h | h⟩ := given l hv want t f h
  swap
  · exact h.2.1
  obtain ⟨w, -, -, hs⟩ := h
  cases hp : t.prim <;> rw [hp] at hs <;> simp only [Suits] at hs <;> simp only [Prim.Holds]
  all_goals first
    | exact hs.2
    | skip
  · rw [natAbs_val]; exact ⟨l.abs, 0, hs.2, by simp⟩
  · rw [natAbs_val]
    rcases Nat.lt_or_eq_of_le (hf hp) with h | h
    · exact ⟨l.abs, 0, h, by simp⟩
    · exact ⟨1, 53, by decide, by rw [h]; rfl⟩

/-- **C106 (truth).** The value is known to be true exactly if it is not zero. -/
theorem C106_truth (l : Lit) (hv : l.Valid) (want : Option Want) (t : Ty) (f : Facts) (h : solveInt l.text want = some (t, f)) :
    f = .alwaysTrue ↔ l.val ≠ 0 :=
  (given l hv want t f h).2.1

/-- **C106 (the user's own).** A type of the user's own is given only if it is wanted. -/
theorem C106_user (l : Lit) (hv : l.Valid) (want : Option Want) (t : Ty) (f : Facts) (h : solveInt l.text want = some (t, f)) (u : Nat)
    (hu : t.user = some u) : want = some ⟨some u, some t.prim⟩ := by
  obtain ⟨-, -, h | h⟩ := given l hv want t f h
  · obtain ⟨⟨user, base⟩, ⟨rfl, hb⟩, hu', -⟩ := h
    simp only at hb hu'
    rw [hb, ← hu', hu]
  · rw [h.1] at hu; exact absurd hu (by simp)

/-! ## Findings -/

/-- **C106, what is false.** Wanted as a float of 64 bits, 2^53 + 1 is given that type, which cannot hold it. -/
theorem C106_f64_lossy_partial : solveInt (str "9007199254740993") (some ⟨none, some .f64⟩) = some (⟨none, .f64⟩, .alwaysTrue) ∧
    ¬ Prim.f64.Holds 9007199254740993 :=
  ⟨by decide +kernel, C29_float64_inexact.2⟩

/-- A decimal that `u64` alone holds is refused although the same number in another base is given `u64`. -/
theorem C106_decimal_refused_partial : solveInt (str "9223372036854775808") none = none ∧
    solveInt (str "0x8000000000000000") none = some (⟨none, .u64⟩, .alwaysTrue) ∧ Prim.u64.Holds 9223372036854775808 :=
  ⟨by decide +kernel, by decide +kernel, by constructor <;> decide⟩

/-- A real is a float of 32 bits exactly if that very type is wanted: never a type of the user's own made of it, though an int literal does take that. -/
theorem C106_real_partial (want : Option Want) : (solveReal want = .f32 ↔ want = some ⟨none, some .f32⟩) ∧
    solveReal (some ⟨some 1, some .f32⟩) = .f64 ∧ solveInt (str "1") (some ⟨some 1, some .f32⟩) = some (⟨some 1, .f32⟩, .alwaysTrue) := by
  refine ⟨?_, by decide, by decide +kernel⟩
  unfold solveReal
  by_cases h : want = some ⟨none, some .f32⟩
  · rw [if_pos h]; exact ⟨fun _ => h, fun _ => rfl⟩
  · rw [if_neg h]; exact ⟨fun h' => absurd h' (by decide), fun h' => absurd h' h⟩

/-! ## Instances -/

def lit (sign : Option Bool) (base : Nat) (digits : List (Option Nat)) (u : Bool) : Lit := ⟨sign, base, digits, u⟩

/-- `255` as a `u8`; as an `i8` it is an `i32` -/
example : (lit none 10 [some 2, some 5, some 5] false).Valid ∧ Accepted (lit none 10 [some 2, some 5, some 5] false) ∧
    Suits (lit none 10 [some 2, some 5, some 5] false) .u8 ∧ ¬ Suits (lit none 10 [some 2, some 5, some 5] false) .i8 := by
  refine ⟨⟨.inl rfl, ?_, by simp [lit]⟩, by constructor <;> decide, ⟨by decide, by constructor <;> decide⟩, fun h => absurd h.2.2 (by decide)⟩
  simp [lit]

example : solveInt (str "255") (some ⟨none, some .u8⟩) = some (⟨none, .u8⟩, .alwaysTrue) ∧
    solveInt (str "255") (some ⟨none, some .i8⟩) = some (⟨none, .i32⟩, .alwaysTrue) ∧
    solveInt (str "-128") (some ⟨some 4, some .i8⟩) = some (⟨some 4, .i8⟩, .alwaysTrue) ∧
    solveInt (str "0u") (some ⟨none, some .f64⟩) = some (⟨none, .u32⟩, .alwaysFalse) ∧
    solveInt (str "-0") (some ⟨none, some .u8⟩) = some (⟨none, .i32⟩, .alwaysFalse) ∧
    solveInt (str "4294967296u") none = some (⟨none, .u64⟩, .alwaysTrue) ∧ solveInt (str "-1u") none = none := by
  decide +kernel

end Verif.IntType
