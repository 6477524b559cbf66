import Verif.EmbedBits
/-! # Fonts written as source code: all glyphs in boxes of one size -/
namespace Verif.Embed
open Verif.Bdf (Box Glyph)

theorem copyRow_spec (src : List Byte) : ∀ (n so d : Nat) (dest : List Byte), so + n ≤ src.length → d + n ≤ dest.length →
    ∃ r, copyRow src dest so d n = some r ∧ r.length = dest.length ∧
      (∀ x, x < n → r[d + x]? = src[so + x]?) ∧ ∀ q, (∀ x, x < n → q ≠ d + x) → r[q]? = dest[q]? := by
  intro n
  induction n with
  | zero => intro so d dest _ _; exact ⟨dest, rfl, rfl, by intro x h; omega, fun _ _ => rfl⟩
  | succ n ih =>
    intro so d dest h1 h2
    unfold copyRow
    rw [List.getElem?_eq_getElem (by omega)]
    simp only
    rw [if_pos (by omega)]
    obtain ⟨r, e, hr, hin, hout⟩ := ih (so + 1) (d + 1) (dest.set d src[so]) (by omega) (by simp; omega)
    refine ⟨r, e, by simpa using hr, ?_, ?_⟩
    · intro x hx
      cases x with
      | zero =>
        rw [hout (d + 0) (by intro x _; omega)]
        rw [Nat.add_zero, List.getElem?_set_self (by omega), Nat.add_zero, List.getElem?_eq_getElem (by omega)]
      | succ x =>
        have := hin x (by omega)
        rw [show d + (x + 1) = d + 1 + x by omega, this, show so + (x + 1) = so + 1 + x by omega]
    · intro q hq
      rw [hout q (fun x hx => by have := hq (x + 1) (by omega); omega)]
      rw [List.getElem?_set_ne (by have := hq 0 (by omega); omega)]

theorem copyRows_spec (src : List Byte) (sw dw : Nat) (hw : sw ≤ dw) : ∀ (n so d : Nat) (dest : List Byte), so + n * sw ≤ src.length →
    (0 < n → d + (n - 1) * dw + sw ≤ dest.length) →
    ∃ r, copyRows src dest sw dw so d n = some r ∧ r.length = dest.length ∧
      (∀ y x, y < n → x < sw → r[d + y * dw + x]? = src[so + y * sw + x]?) ∧
      ∀ q, (∀ y x, y < n → x < sw → q ≠ d + y * dw + x) → r[q]? = dest[q]? := by
  intro n
  induction n with
  | zero => intro so d dest _ _; exact ⟨dest, rfl, rfl, by intro y x h; omega, fun _ _ => rfl⟩
  | succ n ih =>
    intro so d dest h1 h2
    have h2 := h2 (Nat.zero_lt_succ _)
    rw [Nat.add_sub_cancel] at h2
    have e1 : (n + 1) * sw = n * sw + sw := Nat.succ_mul n sw
    unfold copyRows
    obtain ⟨r, e, hr, hin, hout⟩ := copyRow_spec src sw so d dest (by omega) (by
      have : n * dw ≥ 0 := Nat.zero_le _
      omega)
    rw [e, Option.bind_some]
    obtain ⟨r', e', hr', hin', hout'⟩ := ih (so + sw) (d + dw) r (by omega) (by
      intro hn
      have : n * dw = (n - 1) * dw + dw := by
        obtain ⟨m, rfl⟩ : ∃ m, n = m + 1 := ⟨n - 1, by omega⟩
        rw [Nat.add_sub_cancel, Nat.succ_mul]
      omega)
    refine ⟨r', e', by omega, ?_, ?_⟩
    · intro y x hy hx
      cases y with
      | zero =>
        rw [Nat.zero_mul, Nat.zero_mul, Nat.add_zero, Nat.add_zero, hout' (d + x) ?_, hin x hx]
        intro y x' _ hx'
        have : y * dw ≥ 0 := Nat.zero_le _
        omega
      | succ y =>
        have := hin' y x (by omega) hx
        rw [Nat.succ_mul, Nat.succ_mul, show d + (y * dw + dw) + x = d + dw + y * dw + x by omega, this,
          show so + (y * sw + sw) + x = so + sw + y * sw + x by omega]
    · intro q hq
      rw [hout' q ?_, hout q ?_]
      · intro x hx
        have := hq 0 x (by omega) hx
        omega
      · intro y x hy hx
        have := hq (y + 1) x (by omega) hx
        rw [Nat.succ_mul] at this
        omega

theorem smin_le (a b : BitVec 16) : (smin a b).toInt ≤ a.toInt ∧ (smin a b).toInt ≤ b.toInt ∧ (smin a b = a ∨ smin a b = b) := by
  unfold smin; split <;> simp <;> omega

theorem smax_ge (a b : BitVec 16) : a.toInt ≤ (smax a b).toInt ∧ b.toInt ≤ (smax a b).toInt ∧ (smax a b = a ∨ smax a b = b) := by
  unfold smax; split <;> simp <;> omega

/-- the box around the boxes: each side is the outermost of the sides of the glyphs -/
structure Hull (gs : List Glyph) (D : Box) : Prop where
  x0 : ∀ g ∈ gs, D.x_min.toInt ≤ g.box.x_min.toInt
  x1 : ∀ g ∈ gs, g.box.x_max.toInt ≤ D.x_max.toInt
  y0 : ∀ g ∈ gs, D.y_min.toInt ≤ g.box.y_min.toInt
  y1 : ∀ g ∈ gs, g.box.y_max.toInt ≤ D.y_max.toInt
  ex0 : ∃ g ∈ gs, D.x_min = g.box.x_min
  ex1 : ∃ g ∈ gs, D.x_max = g.box.x_max
  ey0 : ∃ g ∈ gs, D.y_min = g.box.y_min
  ey1 : ∃ g ∈ gs, D.y_max = g.box.y_max

theorem firstBox_mem : ∀ (gs : List Glyph) (m : Box), gs ≠ [] → ∃ g ∈ gs, firstBox m gs = g.box := by
  intro gs
  induction gs with
  | nil => intro m h; exact absurd rfl h
  | cons g gs ih =>
    intro m _
    unfold firstBox
    by_cases h : g.box ≠ .zero
    · rw [if_pos h]; exact ⟨g, by simp, rfl⟩
    · rw [if_neg h]
      cases gs with
      | nil => exact ⟨g, by simp, rfl⟩
      | cons g' gs' =>
        obtain ⟨x, hx, e⟩ := ih g.box (by simp)
        exact ⟨x, List.mem_cons_of_mem _ hx, e⟩

theorem join_le : ∀ (gs : List Glyph) (b : Box),
    (gs.foldl Box.join b).x_min.toInt ≤ b.x_min.toInt ∧ b.x_max.toInt ≤ (gs.foldl Box.join b).x_max.toInt ∧
    (gs.foldl Box.join b).y_min.toInt ≤ b.y_min.toInt ∧ b.y_max.toInt ≤ (gs.foldl Box.join b).y_max.toInt ∧
    (∀ g ∈ gs, (gs.foldl Box.join b).x_min.toInt ≤ g.box.x_min.toInt ∧ g.box.x_max.toInt ≤ (gs.foldl Box.join b).x_max.toInt ∧
      (gs.foldl Box.join b).y_min.toInt ≤ g.box.y_min.toInt ∧ g.box.y_max.toInt ≤ (gs.foldl Box.join b).y_max.toInt) ∧
    ((gs.foldl Box.join b).x_min = b.x_min ∨ ∃ g ∈ gs, (gs.foldl Box.join b).x_min = g.box.x_min) ∧
    ((gs.foldl Box.join b).x_max = b.x_max ∨ ∃ g ∈ gs, (gs.foldl Box.join b).x_max = g.box.x_max) ∧
    ((gs.foldl Box.join b).y_min = b.y_min ∨ ∃ g ∈ gs, (gs.foldl Box.join b).y_min = g.box.y_min) ∧
    ((gs.foldl Box.join b).y_max = b.y_max ∨ ∃ g ∈ gs, (gs.foldl Box.join b).y_max = g.box.y_max) := by
  intro gs
  induction gs with
  | nil => intro b; simp
  | cons g gs ih =>
    intro b
    rw [List.foldl_cons]
    obtain ⟨a1, a2, a3, a4, a5, a6, a7, a8, a9⟩ := ih (Box.join b g)
    generalize gs.foldl Box.join (Box.join b g) = D at *
    have m1 := smin_le b.x_min g.box.x_min
    have m2 := smax_ge b.x_max g.box.x_max
    have m3 := smin_le b.y_min g.box.y_min
    have m4 := smax_ge b.y_max g.box.y_max
    simp only [Box.join] at a1 a2 a3 a4 a6 a7 a8 a9
    have pick : ∀ {v x y : BitVec 16} {f : Glyph → BitVec 16}, (v = x ∨ ∃ g ∈ gs, v = f g) → (x = y ∨ x = f g) →
        (v = y ∨ ∃ g' ∈ g :: gs, v = f g') := by
      rintro v x y f (h | ⟨g', hg', h⟩) hx
      · rcases hx with hx | hx
        · exact .inl (h.trans hx)
        · exact .inr ⟨g, by simp, h.trans hx⟩
      · exact .inr ⟨g', by simp [hg'], h⟩
    refine ⟨by omega, by omega, by omega, by omega, ?_, pick (f := fun g => g.box.x_min) a6 m1.2.2,
      pick (f := fun g => g.box.x_max) a7 m2.2.2, pick (f := fun g => g.box.y_min) a8 m3.2.2, pick (f := fun g => g.box.y_max) a9 m4.2.2⟩
    intro g' hg'
    rcases List.mem_cons.1 hg' with rfl | hg'
    · omega
    · exact a5 g' hg'

/-- the common box is the box around the boxes -/
theorem hull (gs : List Glyph) (m : Box) (h : gs ≠ []) : Hull gs (gs.foldl Box.join (firstBox m gs)) := by
  obtain ⟨g, hg, e⟩ := firstBox_mem gs m h
  obtain ⟨a1, a2, a3, a4, a5, a6, a7, a8, a9⟩ := join_le gs (firstBox m gs)
  rw [e] at *
  have pick : ∀ {v : BitVec 16} {f : Glyph → BitVec 16}, (v = f g ∨ ∃ g' ∈ gs, v = f g') → ∃ g' ∈ gs, v = f g' := by
    rintro v f (h | h)
    · exact ⟨g, hg, h⟩
    · exact h
  exact ⟨fun g hg => (a5 g hg).1, fun g hg => (a5 g hg).2.1, fun g hg => (a5 g hg).2.2.1, fun g hg => (a5 g hg).2.2.2,
    pick (f := fun g => g.box.x_min) a6, pick (f := fun g => g.box.x_max) a7, pick (f := fun g => g.box.y_min) a8,
    pick (f := fun g => g.box.y_max) a9⟩

theorem sub_toInt (a b : BitVec 16) (h0 : b.toInt ≤ a.toInt) (h1 : a.toInt - b.toInt < 32768) : (a - b).toInt = a.toInt - b.toInt := by
  rw [BitVec.toInt_sub, Int.bmod_def]
  have e : ((2 ^ 16 : Nat) : Int) = 65536 := by decide
  rw [e]
  have : (a.toInt - b.toInt) % 65536 = a.toInt - b.toInt := Int.emod_eq_of_lt (by omega) (by omega)
  rw [this]
  rw [if_pos (by omega)]

/-- `row * W + col` tells the row and the column -/
theorem cell_inj {W r c r' c' : Nat} (h : c < W) (h' : c' < W) (e : r * W + c = r' * W + c') : r = r' ∧ c = c' := by
  have hr : r = r' := by
    have a : (r * W + c) / W = r := by rw [Nat.mul_comm, Nat.mul_add_div (by omega), Nat.div_eq_of_lt h]; rfl
    have b : (r' * W + c') / W = r' := by rw [Nat.mul_comm, Nat.mul_add_div (by omega), Nat.div_eq_of_lt h']; rfl
    rw [← a, e, b]
  subst hr
  exact ⟨rfl, by omega⟩

theorem cell_lt {W H r c : Nat} (hr : r < H) (hc : c < W) : r * W + c < H * W := by
  have : (r + 1) * W ≤ H * W := Nat.mul_le_mul_right W hr
  rw [Nat.succ_mul] at this
  omega

/-- a glyph copied into cell number `i` -/
theorem place (src dest : List Byte) (so i W H sw sh t l : Nat) (ht : t + sh ≤ H) (hl : l + sw ≤ W)
    (hs : so + sh * sw ≤ src.length) (hd : (i + 1) * (H * W) ≤ dest.length) :
    ∃ r, copyRows src dest sw W so (i * (H * W) + t * W + l) sh = some r ∧ r.length = dest.length ∧
      (∀ row col, row < H → col < W → r[i * (H * W) + row * W + col]? =
        if t ≤ row ∧ row < t + sh ∧ l ≤ col ∧ col < l + sw then src[so + (row - t) * sw + (col - l)]?
        else dest[i * (H * W) + row * W + col]?) ∧
      ∀ q, (q < i * (H * W) ∨ (i + 1) * (H * W) ≤ q) → r[q]? = dest[q]? := by
  rw [Nat.succ_mul] at hd
  obtain ⟨r, e, hr, hin, hout⟩ := copyRows_spec src sw W (by omega) sh so (i * (H * W) + t * W + l) dest hs (by
    intro h0
    rcases Nat.eq_zero_or_pos sw with h | h
    · have := Nat.mul_le_mul_right W (show t + (sh - 1) + 1 ≤ H by omega)
      rw [Nat.add_mul, Nat.add_mul, Nat.one_mul] at this
      omega
    · have := @cell_lt W H (t + (sh - 1)) (l + sw - 1) (by omega) (by omega)
      rw [Nat.add_mul] at this
      omega)
  refine ⟨r, e, hr, ?_, ?_⟩
  · intro row col hrow hcol
    by_cases h : t ≤ row ∧ row < t + sh ∧ l ≤ col ∧ col < l + sw
    · rw [if_pos h, ← hin (row - t) (col - l) (by omega) (by omega)]
      congr 1
      have : t * W + (row - t) * W = row * W := by rw [← Nat.add_mul]; congr 1; omega
      omega
    · rw [if_neg h]
      apply hout
      intro y x hy hx he
      have : t * W + y * W = (t + y) * W := (Nat.add_mul t y W).symm
      have := @cell_inj W row col (t + y) (l + x) hcol (by omega) (by omega)
      omega
  · intro q hq
    apply hout
    intro y x hy hx he
    have h1 : t * W + y * W = (t + y) * W := (Nat.add_mul t y W).symm
    have h2 := @cell_lt W H (t + y) (l + x) (by omega) (by omega)
    rw [Nat.succ_mul] at hq
    omega

/-- the glyph is inside the box, and its pixels are there -/
structure In (src : List Byte) (D : Box) (W H : Nat) (g : Glyph) : Prop where
  w : (W : Int) = D.x_max.toInt - D.x_min.toInt
  h : (H : Int) = D.y_max.toInt - D.y_min.toInt
  x0 : D.x_min.toInt ≤ g.box.x_min.toInt
  x1 : g.box.x_max.toInt ≤ D.x_max.toInt
  y0 : D.y_min.toInt ≤ g.box.y_min.toInt
  y1 : g.box.y_max.toInt ≤ D.y_max.toInt
  x : g.box.x_min.toInt ≤ g.box.x_max.toInt
  y : g.box.y_min.toInt ≤ g.box.y_max.toInt
  small : W < 32768 ∧ H < 32768
  there : g.top + (g.box.y_max.toInt - g.box.y_min.toInt).toNat * (g.box.x_max.toInt - g.box.x_min.toInt).toNat ≤ src.length

theorem copyGlyphs_spec (src : List Byte) (D : Box) (W H : Nat) (hw : max D.width 0 = W) (hh : max D.height 0 = H)
    (hst : D.stride.toNat = H * W) : ∀ (gs : List Glyph) (i : Nat) (dest : List Byte),
    (∀ g ∈ gs, In src D W H g) → (i + gs.length) * (H * W) = dest.length →
    (∀ q, i * (H * W) ≤ q → q < dest.length → dest[q]? = some 0) →
    ∃ r, copyGlyphs src D dest i gs = some r ∧ r.length = dest.length ∧
      (∀ q, q < i * (H * W) → r[q]? = dest[q]?) ∧
      ∀ k g, gs[k]? = some g → ∀ row col, row < H → col < W →
        r[(i + k) * (H * W) + row * W + col]? = some (ink src g (D.x_min.toInt + col) (D.y_max.toInt - 1 - row)) := by
  intro gs
  induction gs with
  | nil => intro i dest _ _ _; exact ⟨dest, rfl, rfl, fun _ _ => rfl, by intro k g h; cases h⟩
  | cons g gs ih =>
    intro i dest hin hlen hz
    have hg := hin g (by simp)
    have hgw : g.box.width = g.box.x_max.toInt - g.box.x_min.toInt := sub_toInt _ _ hg.x (by have := hg.small; have := hg.w; have := hg.x0; have := hg.x1; omega)
    have hgh : g.box.height = g.box.y_max.toInt - g.box.y_min.toInt := sub_toInt _ _ hg.y (by have := hg.small; have := hg.h; have := hg.y0; have := hg.y1; omega)
    have ew := hg.w
    have eh := hg.h
    have gx0 := hg.x0
    have gx1 := hg.x1
    have gy0 := hg.y0
    have gy1 := hg.y1
    have gx := hg.x
    have gy := hg.y
    obtain ⟨sw, hsw⟩ : ∃ sw : Nat, (sw : Int) = g.box.x_max.toInt - g.box.x_min.toInt := ⟨(g.box.x_max.toInt - g.box.x_min.toInt).toNat, by omega⟩
    obtain ⟨sh, hsh⟩ : ∃ sh : Nat, (sh : Int) = g.box.y_max.toInt - g.box.y_min.toInt := ⟨(g.box.y_max.toInt - g.box.y_min.toInt).toNat, by omega⟩
    obtain ⟨t, ht⟩ : ∃ t : Nat, (t : Int) = D.y_max.toInt - g.box.y_max.toInt := ⟨(D.y_max.toInt - g.box.y_max.toInt).toNat, by omega⟩
    obtain ⟨l, hl⟩ : ∃ l : Nat, (l : Int) = g.box.x_min.toInt - D.x_min.toInt := ⟨(g.box.x_min.toInt - D.x_min.toInt).toNat, by omega⟩
    have thr := hg.there
    have nsw : (g.box.x_max.toInt - g.box.x_min.toInt).toNat = sw := by omega
    have nsh : (g.box.y_max.toInt - g.box.y_min.toInt).toNat = sh := by omega
    rw [nsw, nsh] at thr
    have hlen' : (i + 1) * (H * W) + gs.length * (H * W) = dest.length := by
      rw [← Nat.add_mul, ← hlen]; congr 1; simp; omega
    obtain ⟨r1, e1, hr1, in1, out1⟩ := place src dest g.top i W H sw sh t l (by omega) (by omega) thr (by omega)
    unfold copyGlyphs
    rw [hw, hh, hst, hgw, hgh]
    rw [if_pos ⟨by omega, by omega, by omega, by omega⟩]
    rw [← hsw, ← hsh, ← ht, ← hl, show (max (sw : Int) 0).toNat = sw by omega, show (max (sh : Int) 0).toNat = sh by omega,
      Int.toNat_natCast, Int.toNat_natCast, Int.toNat_natCast, e1, Option.bind_some]
    obtain ⟨r, e, hr, lo, hi⟩ := ih (i + 1) r1 (fun g hg => hin g (by simp [hg])) (by rw [hr1, ← hlen, List.length_cons]; congr 1; omega)
      (by
        intro q hq1 hq2
        rw [out1 q (.inr hq1)]
        apply hz q _ (by omega)
        rw [Nat.succ_mul] at hq1
        omega)
    refine ⟨r, e, by omega, ?_, ?_⟩
    · intro q hq
      rw [lo q (by rw [Nat.succ_mul]; omega), out1 q (.inl hq)]
    · intro k g' hk row col hrow hcol
      cases k with
      | succ k =>
        have := hi k g' (by simpa using hk) row col hrow hcol
        rw [show i + (k + 1) = i + 1 + k by omega]
        exact this
      | zero =>
        have : g' = g := by simpa using hk.symm
        subst this
        have hc := @cell_lt W H row col hrow hcol
        rw [Nat.add_zero, lo _ (by rw [Nat.succ_mul]; omega), in1 row col hrow hcol]
        unfold ink
        by_cases h : t ≤ row ∧ row < t + sh ∧ l ≤ col ∧ col < l + sw
        · rw [if_pos h, if_pos ⟨by omega, by omega, by omega, by omega⟩, nsw]
          rw [show (g'.box.y_max.toInt - 1 - (D.y_max.toInt - 1 - (row : Int))).toNat = row - t by omega,
            show (D.x_min.toInt + (col : Int) - g'.box.x_min.toInt).toNat = col - l by omega]
          have hb : (row - t) * sw + (col - l) < sh * sw := cell_lt (by omega) (by omega)
          rw [List.getD_eq_getElem?_getD, List.getElem?_eq_getElem (by omega)]
          rfl
        · rw [if_neg h, if_neg (by omega)]
          apply hz
          · omega
          · rw [Nat.succ_mul] at hlen'
            omega

/-- The glyphs of a font moved into boxes of one size: there is no fault, the common box is the box around the boxes, the glyphs
follow each other, and every point of every glyph is as it was. -/
theorem makeMono_keeps (bf : Bitmap) (hm : bf.mono = .zero) (hne : bf.glyphs ≠ []) (ok : bf.Ok) :
    ∃ bf', makeMono bf = some bf' ∧ Hull bf.glyphs bf'.mono ∧ bf'.glyphs.length = bf.glyphs.length ∧
      bf'.mono.width = bf'.mono.x_max.toInt - bf'.mono.x_min.toInt ∧ 0 ≤ bf'.mono.width ∧
      bf'.mono.height = bf'.mono.y_max.toInt - bf'.mono.y_min.toInt ∧ 0 ≤ bf'.mono.height ∧
      bf'.texels.length = bf.glyphs.length * (bf'.mono.height.toNat * bf'.mono.width.toNat) ∧
      ∀ (i : Nat) (g : Glyph), bf.glyphs[i]? = some g →
        bf'.glyphs[i]? = some ⟨bf'.mono, i * (bf'.mono.height.toNat * bf'.mono.width.toNat)⟩ ∧
        ∀ X Y, ink bf'.texels ⟨bf'.mono, i * (bf'.mono.height.toNat * bf'.mono.width.toNat)⟩ X Y = ink bf.texels g X Y := by
  have hu := hull bf.glyphs bf.mono hne
  unfold makeMono
  rw [if_neg (by simp [hm])]
  dsimp only
  generalize bf.glyphs.foldl Box.join (firstBox bf.mono bf.glyphs) = D at *
  obtain ⟨ga, hga, ea⟩ := hu.ex0
  obtain ⟨gb, hgb, eb⟩ := hu.ex1
  obtain ⟨gc, hgc, ec⟩ := hu.ey0
  obtain ⟨gd, hgd, ed⟩ := hu.ey1
  have w1 := ok.wide gb hgb ga hga
  have w0 : D.x_min.toInt ≤ D.x_max.toInt := Int.le_trans (hu.x0 ga hga) (Int.le_trans (ok.x ga hga) (hu.x1 ga hga))
  have t1 := ok.tall gd hgd gc hgc
  have t0 : D.y_min.toInt ≤ D.y_max.toInt := Int.le_trans (hu.y0 ga hga) (Int.le_trans (ok.y ga hga) (hu.y1 ga hga))
  rw [← ea, ← eb] at w1
  rw [← ec, ← ed] at t1
  have hw : D.width = D.x_max.toInt - D.x_min.toInt := sub_toInt _ _ w0 w1
  have hh : D.height = D.y_max.toInt - D.y_min.toInt := sub_toInt _ _ t0 t1
  obtain ⟨W, hW⟩ : ∃ W : Nat, D.width = W := ⟨D.width.toNat, by omega⟩
  obtain ⟨H, hH⟩ : ∃ H : Nat, D.height = H := ⟨D.height.toNat, by omega⟩
  have hst : D.stride.toNat = H * W := by
    unfold Box.stride
    rw [hW, hH, ← Int.natCast_mul, Int.toNat_natCast, Nat.mul_comm]
  have hst' : D.stride = ((H * W : Nat) : Int) := by
    unfold Box.stride
    rw [hW, hH, ← Int.natCast_mul, Nat.mul_comm]
  rw [if_neg (by
    rw [hst', ← Int.natCast_mul]
    exact Int.not_lt.2 (Int.natCast_nonneg _))]
  obtain ⟨r, e, hr, -, hin⟩ := copyGlyphs_spec bf.texels D W H (by omega) (by omega) hst bf.glyphs 0
    (List.replicate (bf.glyphs.length * D.stride.toNat) 0) (by
      intro g hg
      exact ⟨by omega, by omega, hu.x0 g hg, hu.x1 g hg, hu.y0 g hg, hu.y1 g hg, ok.x g hg, ok.y g hg, by omega, ok.there g hg⟩)
    (by simp [hst]) (by
      intro q _ hq
      rw [List.getElem?_replicate, if_pos (by simpa using hq)])
  rw [e, Option.map_some]
  refine ⟨_, rfl, hu, by simp, hw, by simp only; omega, hh, by simp only; omega, by simp [hr, hst, hW, hH], ?_⟩
  intro i g hg
  have hi : i < bf.glyphs.length := by
    rcases Nat.lt_or_ge i bf.glyphs.length with h | h
    · exact h
    · rw [List.getElem?_eq_none h] at hg; cases hg
  have hm : g ∈ bf.glyphs := List.mem_of_getElem? hg
  simp only [hW, hH, Int.toNat_natCast, hst]
  refine ⟨by rw [List.getElem?_map, List.getElem?_range hi]; rfl, ?_⟩
  intro X Y
  unfold ink
  dsimp only
  have hx0 := hu.x0 g hm
  have hx1 := hu.x1 g hm
  have hy0 := hu.y0 g hm
  have hy1 := hu.y1 g hm
  by_cases h : D.x_min.toInt ≤ X ∧ X < D.x_max.toInt ∧ D.y_min.toInt ≤ Y ∧ Y < D.y_max.toInt
  · rw [if_pos h]
    have := hin i g hg (D.y_max.toInt - 1 - Y).toNat (X - D.x_min.toInt).toNat (by omega) (by omega)
    rw [Nat.zero_add, show D.x_min.toInt + ((X - D.x_min.toInt).toNat : Int) = X by omega,
      show D.y_max.toInt - 1 - ((D.y_max.toInt - 1 - Y).toNat : Int) = Y by omega] at this
    rw [show (D.x_max.toInt - D.x_min.toInt).toNat = W by omega, List.getD_eq_getElem?_getD, this]
    rfl
  · rw [if_neg h, if_neg (by omega)]

end Verif.Embed
