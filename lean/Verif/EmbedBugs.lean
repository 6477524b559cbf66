import Verif.EmbedFont
/-! # Fonts written as source code: examples, and a font whose glyphs are not in order -/
namespace Verif.Embed
open Verif.Bdf (Box Glyph)

/-- 0, `H`, `b`, `p`, `x` -/
def sampleTable (H x : BitVec 16) : List (BitVec 16) :=
  (List.range 121).map fun c => if c = 72 then H else if c = 98 then 2 else if c = 112 then 3 else if c = 120 then x else 0

/-- glyphs of different boxes: `H` is 2 by 2, `p` goes below the line, 0 is a point at (1, 1) -/
def sample : Bitmap where
  texels := [255, 255, 0, 255, 255, 9, 9, 1, 0, 3, 255]
  mono := .zero
  glyphs := [⟨⟨1, 2, 1, 2⟩, 0⟩, ⟨⟨0, 2, 0, 2⟩, 1⟩, ⟨⟨0, 1, 0, 2⟩, 5⟩, ⟨⟨0, 1, -1, 1⟩, 7⟩, ⟨⟨0, 2, 0, 1⟩, 9⟩]

theorem sample_ok : sample.Ok where
  x := by decide
  y := by decide
  there := by decide
  wide := by decide
  tall := by decide

theorem sample_hull : Hull sample.glyphs ⟨0, 2, -1, 2⟩ where
  x0 := by decide
  x1 := by decide
  y0 := by decide
  y1 := by decide
  ex0 := by decide
  ex1 := by decide
  ey0 := by decide
  ey1 := by decide

theorem sample_ready (H x : BitVec 16) (hH : H ≠ 0) (hx : x ≠ 0) : Ready (sampleTable H x) where
  some := by simp [sampleTable]
  few := by simp [sampleTable]
  x := by simpa [sampleTable] using hx
  p := by simp [sampleTable]
  b := by simp [sampleTable]
  H := by simpa [sampleTable] using hH

theorem sample_at (H x : BitVec 16) (c : Nat) : (sampleTable H x).getD c 0 =
    if c = 72 then H else if c = 98 then 2 else if c = 112 then 3 else if c = 120 then x else 0 := by
  unfold sampleTable
  rw [List.getD_eq_getElem?_getD, List.getElem?_map]
  by_cases h : c < 121
  · rw [List.getElem?_range h]; rfl
  · rw [List.getElem?_eq_none (by simpa using h)]
    simp only [Option.map_none, Option.getD_none]
    rw [if_neg (by omega), if_neg (by omega), if_neg (by omega), if_neg (by omega)]

theorem sample_order : InOrder (sampleTable 1 4) sample.glyphs.length where
  first := by rw [sample_at]; rfl
  up := by
    intro c c' hc h
    rw [sample_at] at h ⊢
    rw [sample_at]
    repeat' split
    all_goals first | omega | decide | (exfalso; apply h; simp [*])
  lt := by
    intro c
    rw [sample_at]
    repeat' split
    all_goals decide
  all := by
    intro i hi
    have hl : (sampleTable 1 4).length = 121 := by simp [sampleTable]
    rw [hl]
    have : i < 5 := hi
    match i, this with
    | 0, _ => exact ⟨0, by decide, by rw [sample_at]; rfl⟩
    | 1, _ => exact ⟨72, by decide, by rw [sample_at]; rfl⟩
    | 2, _ => exact ⟨98, by decide, by rw [sample_at]; rfl⟩
    | 3, _ => exact ⟨112, by decide, by rw [sample_at]; rfl⟩
    | 4, _ => exact ⟨120, by decide, by rw [sample_at]; rfl⟩

/-- the theorem applies: the sample comes back with the same shapes, and not shifted -/
example : ∃ s f, emit ⟨0, 2, -1, 2⟩ (sampleTable 1 4) sample = some s ∧ s.unpack = some f ∧
    ∀ c X Y, f.ink c X Y = lit (ink sample.texels (sample.glyphs.getD ((sampleTable 1 4).getD c 0).toNat ⟨.zero, 0⟩) X Y) := by
  obtain ⟨s, f, es, eu, ex, h, hb⟩ := embed_font_partial (sampleTable 1 4) ⟨0, 2, -1, 2⟩ ⟨0, 2, -1, 2⟩ sample
    (sample_ready 1 4 (by decide) (by decide)) rfl sample_ok sample_hull rfl rfl sample_order
  refine ⟨s, f, es, eu, ?_⟩
  have hy := hb (by
    rintro c (rfl | rfl) X Y hY
    · rw [sample_at]
      show ink sample.texels ⟨⟨0, 2, 0, 1⟩, 9⟩ X Y = 0
      unfold ink; rw [if_neg]; intro h'; have : (0 : BitVec 16).toInt = 0 := by decide
      simp only [this] at h'; omega
    · rw [sample_at]
      show ink sample.texels ⟨⟨0, 2, 0, 2⟩, 1⟩ X Y = 0
      unfold ink; rw [if_neg]; intro h'; have : (0 : BitVec 16).toInt = 0 := by decide
      simp only [this] at h'; omega) ⟨72, 1, .inr rfl, by rw [sample_at]; decide⟩
  intro c X Y
  rw [h, hy]
  congr 2
  · show X + (0 : BitVec 16).toInt = X
    have : (0 : BitVec 16).toInt = 0 := by decide
    omega
  · omega

theorem sample_listed : listed (sampleTable 4 1) = [0, 72, 98, 112, 120] := by decide +kernel

/-- **A font whose glyphs are not in the order of their code points is shuffled.** Here `H` has glyph 4 and `x` glyph 1, all else
is as in the sample; in the unpacked font `H` is drawn as `x`. -/
theorem out_of_order_partial : ∃ s f, emit ⟨0, 2, -1, 2⟩ (sampleTable 4 1) sample = some s ∧ s.unpack = some f ∧
    ∀ X Y, f.ink 72 X Y = lit (ink sample.texels (sample.glyphs.getD ((sampleTable 4 1).getD 120 0).toNat ⟨.zero, 0⟩) X
      (Y - f.box.y_min.toInt - 1)) := by
  obtain ⟨s, f, es, eu, ex, h, -⟩ := embed_ranks (sampleTable 4 1) ⟨0, 2, -1, 2⟩ ⟨0, 2, -1, 2⟩ sample
    (sample_ready 4 1 (by decide) (by decide)) rfl sample_ok sample_hull rfl rfl (by rw [sample_listed]; rfl)
  refine ⟨s, f, es, eu, ?_⟩
  intro X Y
  have e72 : (listed (sampleTable 4 1))[1]? = some 72 := by rw [sample_listed]; rfl
  rw [h 1 72 _ e72 rfl, sample_at]
  congr 2
  show X + (0 : BitVec 16).toInt = X
  have : (0 : BitVec 16).toInt = 0 := by decide
  omega

/-- a box one taller than the glyphs need, with 13 columns: the source code written aborts -/
example : ∃ s, emit ⟨0, 13, -1, 9⟩ (sampleTable 1 4) sample = some s ∧ s.unpack = none :=
  embed_box_wrong_partial (sampleTable 1 4) ⟨0, 13, -1, 9⟩ ⟨0, 2, -1, 2⟩ sample rfl sample_ok sample_hull
    (by rw [show listed (sampleTable 1 4) = [0, 72, 98, 112, 120] by decide +kernel]; rfl) (by decide)

/-- a number as it is written -/
example : hex 0x1f0 = str "0x1f0" := by
  have h0 : hexLoop 0 = [] := by rw [hexLoop]; rfl
  have h1 : hexLoop 1 = [49] := by rw [hexLoop, dif_neg (by decide)]; show _ :: hexLoop 0 = _; rw [h0]; rfl
  have h2 : hexLoop 31 = [102, 49] := by rw [hexLoop, dif_neg (by decide)]; show _ :: hexLoop 1 = _; rw [h1]; rfl
  have h3 : hexLoop 496 = [48, 102, 49] := by rw [hexLoop, dif_neg (by decide)]; show _ :: hexLoop 31 = _; rw [h2]; rfl
  unfold hex
  rw [h3]; rfl

/-- 65 pixels are two words -/
example : bitsToBytes (bytesToBits (7 :: List.replicate 64 0)) = some (255 :: List.replicate 127 0) := by
  obtain ⟨r, e, -, h⟩ := bits_round (7 :: List.replicate 64 0)
  rw [e, h]; rfl

end Verif.Embed
