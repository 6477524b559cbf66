import Verif.EmbedTable
import Verif.EmbedMeas
/-! # Fonts written as source code: the font comes back -/
namespace Verif.Embed
open Verif.Bdf (Box Glyph)

theorem idxOf_nodup : ∀ (l : List (BitVec 16)) (i : Nat) (a : BitVec 16), l.Nodup → l[i]? = some a → l.idxOf? a = some i := by
  intro l
  induction l with
  | nil => intro i a _ h; cases h
  | cons b l ih =>
    intro i a hd h
    rw [List.nodup_cons] at hd
    rw [List.idxOf?_cons]
    cases i with
    | zero =>
      have : b = a := by simpa using h
      simp [this]
    | succ i =>
      have h' : l[i]? = some a := by simpa using h
      have hne : ¬ (b = a) := fun e => hd.1 (e ▸ List.mem_of_getElem? h')
      simp [hne, ih i a hd.2 h']

/-- the word for one pixel: the pixel at `x`, `y` from the lower left of cell number `i` is not blank -/
def black (texels : List Byte) (W H i x y : Nat) : Bool := decide (texels.getD (i * (H * W) + (H - 1 - y) * W + x) 0 ≠ 0)

/-- Unpacking what was written from pixels in cells of one size. -/
theorem unpack_core (T : List (BitVec 16)) (W H : Nat) (texels : List Byte)
    (hT : T ≠ []) (hl : T.length ≤ 65536)
    (hx : 120 ∈ listed T) (hp : 112 ∈ listed T) (hb : 98 ∈ listed T) (hH : 72 ∈ listed T)
    (hlen : texels.length = (listed T).length * (H * W)) :
    ∃ f base, Source.unpack ⟨W, H, listText (listed T), listText ((bytesToBits texels).map BitVec.toNat)⟩ = some f ∧
      f.box = ⟨0, BitVec.ofNat 16 W, BitVec.ofInt 16 (0 - (base : Nat)), BitVec.ofInt 16 (H - (base : Nat))⟩ ∧ base ≤ H ∧
      (∀ i x y, ((listed T)[i]? = some 120 ∨ (listed T)[i]? = some 72) → x < W → y < H → black texels W H i x y = true → base ≤ y) ∧
      (base = H ∨ ∃ i x, ((listed T)[i]? = some 120 ∨ (listed T)[i]? = some 72) ∧ x < W ∧ base < H ∧ black texels W H i x base = true) ∧
      (∀ q, q < texels.length → f.texels.getD q 0 = lit (texels.getD q 0)) ∧
      (∀ i c, (listed T)[i]? = some c → (f.codepoints.getD c 0).toNat = i) ∧
      ∀ c, c ∉ listed T → f.codepoints.getD c 0 = 0 := by
  obtain ⟨bl, bb⟩ := bytesToBits_bits texels
  obtain ⟨r, er, hr, req⟩ := bits_round texels
  obtain ⟨tab, et, tin, tout⟩ := table_listed T hT hl
  have small : ∀ c ∈ listed T, c < 65536 := fun c hc => by have := ((listed_mem T c).1 hc).1; omega
  have hnd : ((listed T).map (BitVec.ofNat 16)).Nodup := by
    rw [List.Nodup, List.pairwise_map]
    refine List.Pairwise.imp_of_mem ?_ (listed_sorted T)
    intro a b ha hb hab he
    have := congrArg BitVec.toNat he
    rw [BitVec.toNat_ofNat, BitVec.toNat_ofNat, Nat.mod_eq_of_lt (small a ha), Nat.mod_eq_of_lt (small b hb)] at this
    omega
  have meas : ∀ c : Char, c.toNat ∈ listed T → ∃ i m, (listed T)[i]? = some c.toNat ∧
      measure W H ((listed T).map (BitVec.ofNat 16)) (bytesToBits texels) c = some m ∧
      (∀ x y, x < W → y < H → black texels W H i x y = true → m.y_min ≤ y) ∧
      (m.y_min = H ∨ ∃ x y, x < W ∧ y < H ∧ black texels W H i x y = true ∧ m.y_min = y) := by
    intro c hc
    obtain ⟨i, hi⟩ := List.getElem?_of_mem hc
    have hilt : i < (listed T).length := by
      rcases Nat.lt_or_ge i (listed T).length with h | h
      · exact h
      · rw [List.getElem?_eq_none h] at hi; cases hi
    obtain ⟨m, em, h1, -, -, h4, -⟩ := measure_spec W H ((listed T).map (BitVec.ofNat 16)) (bytesToBits texels) c i
      (idxOf_nodup _ _ _ hnd (by rw [List.getElem?_map, hi]; rfl)) (fun x y => black texels W H i x y) (by
        intro x y hx hy
        have hc := @cell_lt W H (H - 1 - y) x (by omega) hx
        have h2 : i * (H * W) + H * W ≤ (listed T).length * (H * W) := by
          rw [← Nat.succ_mul]; exact Nat.mul_le_mul_right _ hilt
        rw [Nat.mul_comm W H]
        exact bb _ (by rw [bl]; omega))
    exact ⟨i, m, hi, em, fun x y hx hy hl => (h1 x y hx hy hl).2.2.1, h4⟩
  obtain ⟨ix, mx, hix, ex, lx, ax⟩ := meas 'x' hx
  obtain ⟨ip, mp, -, ep, -, -⟩ := meas 'p' hp
  obtain ⟨ib, mb, -, eb, -, -⟩ := meas 'b' hb
  obtain ⟨iH, mH, hiH, eH, lH, aH⟩ := meas 'H' hH
  have e1 : ((bytesToBits texels).map BitVec.toNat).map (BitVec.ofNat 64) = bytesToBits texels := by
    rw [List.map_map]
    conv => rhs; rw [← List.map_id (bytesToBits texels)]
    congr 1
    funext v
    simp
  have uniq : ∀ (i j c : Nat), (listed T)[i]? = some c → (listed T)[j]? = some c → i = j := by
    intro i j c h1 h2
    have := tin i c h1
    rw [tin j c h2] at this
    exact this.symm
  refine ⟨⟨_, tab, r⟩, min mx.y_min mH.y_min, ?_, rfl, ?_, ?_, ?_, ?_, tin, tout⟩
  · unfold Source.unpack
    rw [readList_text, Option.bind_some, readList_text, Option.bind_some, Int.toNat_natCast, Int.toNat_natCast, e1]
    unfold make
    rw [ex, ep, eb, eH, er, et]
    simp only [Option.bind_some, List.length_map]
    rw [if_pos (by rw [hr, hlen, Nat.mul_comm W H])]
  · rcases ax with h | ⟨x, y, _, h, _, e⟩ <;> omega
  · rintro i x y (hi | hi) hx hy hl
    · rw [uniq i ix _ hi hix] at hl
      have := lx x y hx hy hl; omega
    · rw [uniq i iH _ hi hiH] at hl
      have := lH x y hx hy hl; omega
  · rcases Nat.le_total mx.y_min mH.y_min with hle | hle
    · rw [Nat.min_eq_left hle]
      rcases ax with h | ⟨x, y, h1, h2, h3, e⟩
      · exact .inl h
      · exact .inr ⟨ix, x, .inl hix, h1, by omega, e ▸ h3⟩
    · rw [Nat.min_eq_right hle]
      rcases aH with h | ⟨x, y, h1, h2, h3, e⟩
      · exact .inl h
      · exact .inr ⟨iH, x, .inr hiH, h1, by omega, e ▸ h3⟩
  · intro q hq
    dsimp only
    rw [req, List.getD_eq_getElem?_getD, List.getElem?_append_left (by simpa using hq), List.getElem?_map,
      List.getD_eq_getElem?_getD, List.getElem?_eq_getElem hq]
    rfl

/-- the ink of the unpacked font -/
theorem font_ink (f : Font) (W H base i : Nat) (texels : List Byte) (D : Box) (c : Nat) (hW : W < 32768) (hH : H < 32768)
    (dw : (W : Int) = D.x_max.toInt - D.x_min.toInt) (dh : (H : Int) = D.y_max.toInt - D.y_min.toInt)
    (hbox : f.box = ⟨0, BitVec.ofNat 16 W, BitVec.ofInt 16 (0 - (base : Nat)), BitVec.ofInt 16 (H - (base : Nat))⟩) (hbase : base ≤ H)
    (hi : (i + 1) * (H * W) ≤ texels.length) (hc : (f.codepoints.getD c 0).toNat = i)
    (ht : ∀ q, q < texels.length → f.texels.getD q 0 = lit (texels.getD q 0)) :
    f.box.y_min.toInt = -base ∧ f.box.x_min.toInt = 0 ∧
    ∀ X Y, f.ink c X Y = lit (ink texels ⟨D, i * (H * W)⟩ (X + D.x_min.toInt) (Y + base + D.y_min.toInt)) := by
  have x0 : f.box.x_min.toInt = 0 := by rw [hbox]; rfl
  have x1 : f.box.x_max.toInt = W := by
    rw [hbox]; show (BitVec.ofNat 16 W).toInt = W
    have hn : (BitVec.ofNat 16 W).toNat = W := by rw [BitVec.toNat_ofNat]; exact Nat.mod_eq_of_lt (Nat.lt_of_lt_of_le hW (by decide))
    rw [BitVec.toInt_eq_toNat_of_lt (by rw [hn]; exact Nat.lt_of_lt_of_le (Nat.mul_lt_mul_of_pos_left hW (by decide)) (by decide)), hn]
  have y0 : f.box.y_min.toInt = -base := by
    rw [hbox]; show (BitVec.ofInt 16 (0 - (base : Nat))).toInt = _
    rw [BitVec.toInt_ofInt, Int.bmod_def]
    omega
  have y1 : f.box.y_max.toInt = H - base := by
    rw [hbox]; show (BitVec.ofInt 16 (H - (base : Nat))).toInt = _
    rw [BitVec.toInt_ofInt, Int.bmod_def]
    omega
  have hst : f.box.stride.toNat = H * W := by
    have a : f.box.width = W := by
      show (f.box.x_max - f.box.x_min).toInt = W
      rw [sub_toInt _ _ (by omega) (by omega)]; omega
    have b : f.box.height = H := by
      show (f.box.y_max - f.box.y_min).toInt = H
      rw [sub_toInt _ _ (by omega) (by omega)]; omega
    unfold Box.stride
    rw [a, b, ← Int.natCast_mul, Int.toNat_natCast, Nat.mul_comm]
  refine ⟨y0, x0, ?_⟩
  intro X Y
  unfold Font.ink ink
  dsimp only
  rw [hst, hc, x0, x1, y0, y1]
  by_cases h : 0 ≤ X ∧ X < W ∧ -(base : Int) ≤ Y ∧ Y < H - base
  · rw [if_pos h, if_pos ⟨by omega, by omega, by omega, by omega⟩]
    rw [show ((W : Int) - 0).toNat = W by omega, show (D.x_max.toInt - D.x_min.toInt).toNat = W by omega,
      show (D.y_max.toInt - 1 - (Y + base + D.y_min.toInt)).toNat = ((H : Int) - base - 1 - Y).toNat by omega,
      show (X + D.x_min.toInt - D.x_min.toInt).toNat = (X - 0).toNat by omega]
    apply ht
    have := @cell_lt W H ((H : Int) - base - 1 - Y).toNat (X - 0).toNat (by omega) (by omega)
    rw [Nat.succ_mul] at hi
    omega
  · rw [if_neg h, if_neg (by omega)]
    rfl

/-- glyph number `i` of a bitmap (lib/ui/BitmapFont.fu:21-40) -/
def Bitmap.glyph (bf : Bitmap) (i : Nat) : Glyph :=
  if bf.mono.stride ≠ 0 then ⟨bf.mono, i * bf.mono.stride.toNat⟩ else bf.glyphs.getD i ⟨.zero, 0⟩

/-- what emitting amounts to, once the glyphs are in boxes of one size -/
theorem embed_cells (T : List (BitVec 16)) (box D : Box) (texels : List Byte) (bf : Bitmap) (gs : List Glyph)
    (em : makeMono bf = some ⟨texels, D, gs⟩)
    (hT : T ≠ []) (hl : T.length ≤ 65536)
    (hx : 120 ∈ listed T) (hp : 112 ∈ listed T) (hb : 98 ∈ listed T) (hH : 72 ∈ listed T)
    (dw : D.width = D.x_max.toInt - D.x_min.toInt) (dh : D.height = D.y_max.toInt - D.y_min.toInt)
    (w0 : 0 ≤ D.width) (h0 : 0 ≤ D.height)
    (bw : box.width = D.width) (bh : box.height = D.height)
    (hlen : texels.length = (listed T).length * (D.height.toNat * D.width.toNat)) :
    ∃ s f, emit box T bf = some s ∧ s.unpack = some f ∧ f.box.x_min = 0 ∧
      (∀ i c, (listed T)[i]? = some c → ∀ X Y, f.ink c X Y =
        lit (ink texels ⟨D, i * (D.height.toNat * D.width.toNat)⟩ (X + D.x_min.toInt) (Y - f.box.y_min.toInt + D.y_min.toInt))) ∧
      (∀ c, c ∉ listed T → ∀ X Y, f.ink c X Y = f.ink 0 X Y) ∧
      ((∀ i, ((listed T)[i]? = some 120 ∨ (listed T)[i]? = some 72) → ∀ X Y, Y < 0 →
          ink texels ⟨D, i * (D.height.toNat * D.width.toNat)⟩ X Y = 0) →
        (∃ i X, ((listed T)[i]? = some 120 ∨ (listed T)[i]? = some 72) ∧
          ink texels ⟨D, i * (D.height.toNat * D.width.toNat)⟩ X 0 ≠ 0) →
        f.box.y_min = D.y_min) := by
  have W1 : D.width < 32768 := by unfold Box.width; have := BitVec.toInt_lt (x := D.x_max - D.x_min); simpa using this
  have H1 : D.height < 32768 := by unfold Box.height; have := BitVec.toInt_lt (x := D.y_max - D.y_min); simpa using this
  obtain ⟨W, hW⟩ : ∃ W : Nat, D.width = W := ⟨D.width.toNat, by omega⟩
  obtain ⟨H, hH'⟩ : ∃ H : Nat, D.height = H := ⟨D.height.toNat, by omega⟩
  have eW : D.width.toNat = W := by omega
  have eH : D.height.toNat = H := by omega
  rw [eW, eH] at hlen ⊢
  rw [hW] at dw bw w0 W1
  rw [hH'] at dh bh h0 H1
  obtain ⟨f, base, eu, ebox, hbase, hlow, hatt, ht, hin, hout⟩ := unpack_core T W H texels hT hl hx hp hb hH hlen
  have hlt : ∀ {i c : Nat}, (listed T)[i]? = some c → i < (listed T).length := by
    intro i c h
    rcases Nat.lt_or_ge i (listed T).length with h' | h'
    · exact h'
    · rw [List.getElem?_eq_none h'] at h; cases h
  have fits : ∀ {i c : Nat}, (listed T)[i]? = some c → (i + 1) * (H * W) ≤ texels.length := by
    intro i c h
    rw [hlen]; exact Nat.mul_le_mul_right _ (hlt h)
  have cell : ∀ {i c : Nat}, (listed T)[i]? = some c → ∀ X Y,
      f.ink c X Y = lit (ink texels ⟨D, i * (H * W)⟩ (X + D.x_min.toInt) (Y - f.box.y_min.toInt + D.y_min.toInt)) := by
    intro i c h X Y
    obtain ⟨y0, -, hi⟩ := font_ink f W H base i texels D c (by omega) (by omega) dw dh ebox hbase (fits h) (hin i c h) ht
    rw [hi, y0]
    congr 2
    omega
  refine ⟨⟨W, H, listText (listed T), listText ((bytesToBits texels).map BitVec.toNat)⟩, f, ?_, eu, by rw [ebox], fun i c h => cell h, ?_, ?_⟩
  · unfold emit
    rw [em, bw, bh, Option.map_some]
  · intro c hc X Y
    have h0' : (listed T)[0]? = some 0 := by rw [← List.head?_eq_getElem?]; exact listed_head T hT
    unfold Font.ink
    have h0'' := hin 0 0 h0'
    rw [hout c hc, h0'']; rfl
  · intro hz hnz
    have y0 : f.box.y_min.toInt = -base := (font_ink f W H base _ texels D _ (by omega) (by omega) dw dh ebox hbase
      (fits (listed_head T hT ▸ List.head?_eq_getElem? ▸ rfl : (listed T)[0]? = some 0)) (hin 0 0 (listed_head T hT ▸ List.head?_eq_getElem? ▸ rfl)) ht).1
    obtain ⟨i, X, hi, hX⟩ := hnz
    -- the point at height 0 is in a row of the cell
    have key : (0 : Int) = base + D.y_min.toInt := by
      unfold ink at hX
      dsimp only at hX
      by_cases hc : D.x_min.toInt ≤ X ∧ X < D.x_max.toInt ∧ D.y_min.toInt ≤ 0 ∧ 0 < D.y_max.toInt
      · rw [if_pos hc] at hX
        obtain ⟨y, hy⟩ : ∃ y : Nat, (y : Int) = -D.y_min.toInt := ⟨(-D.y_min.toInt).toNat, by omega⟩
        have hle := hlow i (X - D.x_min.toInt).toNat y hi (by omega) (by omega) (by
          unfold black
          rw [decide_eq_true_eq]
          rw [show (D.x_max.toInt - D.x_min.toInt).toNat = W by omega,
            show (D.y_max.toInt - 1 - 0).toNat = H - 1 - y by omega] at hX
          exact hX)
        rcases hatt with h | ⟨j, x, hj, hxW, hbH, hbl⟩
        · omega
        · by_cases hge : (base : Int) + D.y_min.toInt < 0
          · exfalso
            have := hz j hj (D.x_min.toInt + x) (base + D.y_min.toInt) hge
            unfold ink at this
            dsimp only at this
            rw [if_pos ⟨by omega, by omega, by omega, by omega⟩] at this
            rw [show (D.x_max.toInt - D.x_min.toInt).toNat = W by omega,
              show (D.y_max.toInt - 1 - (base + D.y_min.toInt)).toNat = H - 1 - base by omega,
              show (D.x_min.toInt + (x : Int) - D.x_min.toInt).toNat = x by omega] at this
            unfold black at hbl
            rw [decide_eq_true_eq] at hbl
            exact hbl this
          · omega
      · rw [if_neg hc] at hX; exact absurd rfl hX
    apply BitVec.eq_of_toInt_eq
    omega

end Verif.Embed
