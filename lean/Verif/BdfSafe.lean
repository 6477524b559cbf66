import Verif.BdfSound
/-! # C99: never out of bounds, and finished glyphs stay -/
namespace Verif.Bdf

structure Inv (k : Nat) (s : St) : Prop where
  box0 : s.cur.didBox = false → s.cur.box = .zero
  w0 : 0 ≤ s.cur.box.width
  h0 : 0 ≤ s.cur.box.height
  off : s.cur.bitmap = false → s.cur.row = 0 ∧ s.cur.top = 0
  on : s.cur.bitmap = true → s.cur.top + s.cur.box.stride ≤ s.texels.length
  row0 : 0 ≤ s.cur.row.toInt
  rowk : s.cur.row.toInt ≤ k
  fits : ∀ g ∈ s.glyphs, 0 ≤ g.box.width ∧ 0 ≤ g.box.height ∧ g.top + g.box.stride ≤ s.texels.length
  before : s.cur.bitmap = true → ∀ g ∈ s.glyphs, g.box.stride = 0 ∨ g.top + g.box.stride ≤ s.cur.top
  len : s.glyphs.length = s.advance.length
  cp : s.advance.length ≤ 65536 → ∀ c ∈ s.codepoints, c.toNat < s.advance.length
  mw : 0 ≤ s.monoBounds.width
  mh : 0 ≤ s.monoBounds.height
  head : s.chars = 0 → s.cur = .init

theorem zw : 0 ≤ Box.zero.width := by decide
theorem zh : 0 ≤ Box.zero.height := by decide
theorem iw : 0 ≤ (Box.mk 1 1 1 1).width := by decide
theorem ih1 : 0 ≤ (Box.mk 1 1 1 1).height := by decide
theorem zr : 0 ≤ (0 : BitVec 16).toInt := by decide
theorem zrk (k : Nat) : (0 : BitVec 16).toInt ≤ (k : Int) := by simp

theorem Inv.init : Inv 0 .init where
  box0 := fun _ => rfl
  w0 := zw
  h0 := zh
  off := fun _ => ⟨rfl, rfl⟩
  on := fun h => by cases h
  row0 := zr
  rowk := zrk 0
  fits := fun g hg => by cases hg
  before := fun h => by cases h
  len := rfl
  cp := fun _ c hc => by cases hc
  mw := zw
  mh := zh
  head := fun _ => rfl

theorem stride_nonneg {b : Box} (w : 0 ≤ b.width) (h : 0 ≤ b.height) : 0 ≤ b.stride := Int.mul_nonneg w h

theorem growTo_length {n : Nat} (l : List (BitVec n)) (k : Nat) : (growTo l k).length = max l.length k := by
  unfold growTo; rw [List.length_append, List.length_replicate]; omega

theorem Inv.reset {k : Nat} {s : St} (h : Inv k s) (k' : Nat) (e : List Err) (n : Nat) :
    Inv k' { s with errors := e, lineNo := n, cur := .init } where
  box0 := fun _ => rfl
  w0 := zw
  h0 := zh
  off := fun _ => ⟨rfl, rfl⟩
  on := by intro h; cases h
  row0 := zw
  rowk := zrk k'
  fits := h.fits
  before := by intro h; cases h
  len := h.len
  cp := h.cp
  mw := h.mw
  mh := h.mh
  head := fun _ => rfl

theorem Inv.weaken {k k' : Nat} {s : St} (h : Inv k s) (hk : k ≤ k') : Inv k' s :=
  { h with rowk := by have := h.rowk; omega }

theorem Inv.error {k : Nat} {s : St} (h : Inv k s) (w : Why) : Inv k (s.error w) :=
  ⟨h.box0, h.w0, h.h0, h.off, h.on, h.row0, h.rowk, h.fits, h.before, h.len, h.cp, h.mw, h.mh, h.head⟩

theorem Inv.bump {k : Nat} {s : St} (h : Inv k s) : Inv k s.bump :=
  ⟨h.box0, h.w0, h.h0, h.off, h.on, h.row0, h.rowk, h.fits, h.before, h.len, h.cp, h.mw, h.mh, h.head⟩

theorem mem_growTo {n : Nat} {l : List (BitVec n)} {k : Nat} {c : BitVec n} (h : c ∈ growTo l k) : c ∈ l ∨ c = 0 := by
  unfold growTo at h
  rcases List.mem_append.mp h with h | h
  · exact Or.inl h
  · exact Or.inr (List.eq_of_mem_replicate h)

theorem Inv.endChar {k : Nat} {s : St} (h : Inv k s) : Inv 0 (endChar s) := by
  unfold Verif.Bdf.endChar
  dsimp only
  split
  · exact h.reset 0 _ _
  · split
    · exact h.reset 0 _ _
    · split
      · exact h.reset 0 _ _
      · split
        · exact h.reset 0 _ _
        · refine ⟨fun _ => rfl, zw, zh, fun _ => ⟨rfl, rfl⟩, (by intro h; cases h), zr, zrk 0, ?_, (by intro h; cases h),
            ?_, ?_, h.mw, h.mh, fun _ => rfl⟩
          · intro g hg
            rcases List.mem_append.mp hg with hg | hg
            · exact h.fits g hg
            · obtain rfl := List.mem_singleton.mp hg
              refine ⟨h.w0, h.h0, ?_⟩
              cases hb : s.cur.bitmap with
              | true => exact h.on hb
              | false =>
                rename_i _ hrow _ _ _
                have hr := (h.off hb).1
                have : s.cur.box.height = 0 := by
                  have : s.cur.row.toInt = s.cur.box.height := by simpa using hrow
                  rw [← this, hr]; rfl
                show ((s.cur.top : Nat) : Int) + s.cur.box.width * s.cur.box.height ≤ _
                rw [this, (h.off hb).2]; simp
          · simp [h.len]
          · intro hl c hc
            simp only [List.length_append, List.length_singleton] at hl ⊢
            rcases List.mem_or_eq_of_mem_set hc with hc | hc
            · rcases mem_growTo hc with hc | hc
              · have := h.cp (by omega) c hc; omega
              · subst hc; simp
            · subst hc
              rw [BitVec.toNat_ofNat, Nat.mod_eq_of_lt (by omega)]; omega

theorem split3 (t : List Byte) (a b : Nat) (h : a + b ≤ t.length) :
    ∃ A B C, t = A ++ B ++ C ∧ A.length = a ∧ B.length = b := by
  refine ⟨t.take a, (t.drop a).take b, (t.drop a).drop b, ?_, ?_, ?_⟩
  · rw [List.append_assoc, List.take_append_drop, List.take_append_drop]
  · rw [List.length_take]; omega
  · rw [List.length_take, List.length_drop]; omega

theorem row_fits {W H R : Int} (hw : 0 ≤ W) (hr : 0 ≤ R) (h : R < H) : 0 ≤ W * R ∧ W * R + W ≤ W * H := by
  refine ⟨Int.mul_nonneg hw hr, ?_⟩
  have : W * (R + 1) ≤ W * H := Int.mul_le_mul_of_nonneg_left (by omega) hw
  rw [Int.mul_add, Int.mul_one] at this
  exact this

/-- a row goes where it belongs -/
theorem bitmapRow_eq {k : Nat} {s : St} (h : Inv k s) (hb : s.cur.bitmap = true) (line : Str)
    (hr : s.cur.row.toInt < s.cur.box.height) : ∃ A B C, s.texels = A ++ B ++ C ∧
      (A.length : Int) = s.cur.top + s.cur.box.width * s.cur.row.toInt ∧ (B.length : Int) = s.cur.box.width ∧
      bitmapRow s line = some { s with texels := A ++ over B line ++ C, cur := { s.cur with row := s.cur.row + 1 } } := by
  have f := row_fits h.w0 h.row0 hr
  have on := h.on hb
  unfold Box.stride at on
  have w := h.w0
  obtain ⟨A, B, C, e, hA, hB⟩ := split3 s.texels (s.cur.top + s.cur.box.width * s.cur.row.toInt).toNat s.cur.box.width.toNat (by omega)
  have eA : (A.length : Int) = s.cur.top + s.cur.box.width * s.cur.row.toInt := by omega
  refine ⟨A, B, C, e, eA, by omega, ?_⟩
  unfold bitmapRow
  dsimp only
  rw [if_pos hr, ← eA, ← hB, e, putRow_mid]

theorem add_one_toInt {r : BitVec 16} {k : Nat} (h0 : 0 ≤ r.toInt) (hk : r.toInt ≤ k) (h : k + 1 < 32768) :
    (r + 1).toInt = r.toInt + 1 := by
  rw [BitVec.toInt_add, show (1 : BitVec 16).toInt = 1 from rfl, Int.bmod_eq_of_le (by omega) (by omega)]

theorem Inv.bitmapRow {k : Nat} {s : St} (h : Inv k s) (hb : s.cur.bitmap = true) (line : Str) (hk : k + 1 < 32768) :
    ∃ s', bitmapRow s line = some s' ∧ Inv (k + 1) s' := by
  have e1 := add_one_toInt h.row0 h.rowk hk
  have r0 := h.row0
  have rk := h.rowk
  by_cases hr : s.cur.row.toInt < s.cur.box.height
  · obtain ⟨A, B, C, e, hA, hB, hs⟩ := bitmapRow_eq h hb line hr
    refine ⟨_, hs, ?_⟩
    have hl : (A ++ over B line ++ C).length = s.texels.length := by rw [e]; simp [over_length]
    refine ⟨h.box0, h.w0, h.h0, ?_, ?_, ?_, ?_, ?_, h.before, h.len, h.cp, h.mw, h.mh, fun hc => by rw [h.head hc] at hb; cases hb⟩
    · intro hf; exact absurd (hb.symm.trans hf) (by decide)
    · intro ht; show _ ≤ ((A ++ over B line ++ C).length : Int); rw [hl]; exact h.on ht
    · show 0 ≤ (s.cur.row + 1).toInt; omega
    · show (s.cur.row + 1).toInt ≤ ((k + 1 : Nat) : Int); omega
    · intro g hg; show _ ∧ _ ∧ _ ≤ ((A ++ over B line ++ C).length : Int); rw [hl]; exact h.fits g hg
  · refine ⟨_, by unfold Verif.Bdf.bitmapRow; dsimp only; rw [if_neg hr], ?_⟩
    refine ⟨h.box0, h.w0, h.h0, ?_, h.on, ?_, ?_, h.fits, h.before, h.len, h.cp, h.mw, h.mh, fun hc => by rw [h.head hc] at hb; cases hb⟩
    · intro hf; exact absurd (hb.symm.trans hf) (by decide)
    · show 0 ≤ (s.cur.row + 1).toInt; omega
    · show (s.cur.row + 1).toInt ≤ ((k + 1 : Nat) : Int); omega

theorem Inv.startBitmap {k : Nat} {s : St} (h : Inv k s) (hc : s.chars ≠ 0) : Inv k (startBitmap s) := by
  unfold Verif.Bdf.startBitmap
  split
  · exact h.error _
  · have st := stride_nonneg h.w0 h.h0
    have hl : ((growTo s.texels (s.texels.length + s.cur.box.stride.toNat)).length : Int) = s.texels.length + s.cur.box.stride := by
      rw [growTo_length]; omega
    refine ⟨h.box0, h.w0, h.h0, ?_, ?_, h.row0, h.rowk, ?_, ?_, h.len, h.cp, h.mw, h.mh, fun h => absurd h hc⟩
    · intro hf; cases hf
    · intro _
      show ((s.texels.length : Nat) : Int) + s.cur.box.stride ≤
        ((growTo s.texels (s.texels.length + s.cur.box.stride.toNat)).length : Int)
      omega
    · intro g hg
      have := h.fits g hg
      refine ⟨this.1, this.2.1, ?_⟩
      show _ ≤ ((growTo s.texels (s.texels.length + s.cur.box.stride.toNat)).length : Int)
      omega
    · intro _ g hg
      exact Or.inr (h.fits g hg).2.2

theorem Inv.setBox {k : Nat} {s : St} (h : Inv k s) (hc : s.chars ≠ 0) (hb : s.cur.bitmap = false) (args : Str) : Inv k (setBox s args) := by
  unfold Verif.Bdf.setBox
  by_cases hd : s.cur.didBox = true
  · rw [if_pos hd]; exact h.error _
  · rw [if_neg hd]
    dsimp only
    generalize (Box.mk _ _ _ _) = b
    have o := h.off hb
    by_cases hw : b.width ≤ 0 ∨ b.height ≤ 0
    · simp only [if_pos hw]
      by_cases hm : (St.error { s with cur := { s.cur with box := b } } .empty).monoBounds = .zero
      · have hm' : s.monoBounds = .zero := hm
        simp only [St.error, if_pos hm']
        refine ⟨(by intro hf; cases hf), zw, zh, h.off, (by intro hf; exact absurd (hb.symm.trans hf) (by decide)), h.row0,
          h.rowk, h.fits, (by intro hf; exact absurd (hb.symm.trans hf) (by decide)), h.len, h.cp, iw, ih1, fun h => absurd h hc⟩
      · have hm' : ¬ s.monoBounds = .zero := hm
        simp only [St.error, if_neg hm']
        split
        · refine ⟨(by intro hf; cases hf), zw, zh, h.off, (by intro hf; exact absurd (hb.symm.trans hf) (by decide)), h.row0,
            h.rowk, h.fits, (by intro hf; exact absurd (hb.symm.trans hf) (by decide)), h.len, h.cp, iw, ih1, fun h => absurd h hc⟩
        · refine ⟨(by intro hf; cases hf), zw, zh, h.off, (by intro hf; exact absurd (hb.symm.trans hf) (by decide)), h.row0,
            h.rowk, h.fits, (by intro hf; exact absurd (hb.symm.trans hf) (by decide)), h.len, h.cp, h.mw, h.mh, fun h => absurd h hc⟩
    · simp only [if_neg hw]
      have w : 0 ≤ b.width := by omega
      have hh : 0 ≤ b.height := by omega
      by_cases hm : s.monoBounds = .zero
      · simp only [if_pos hm]
        refine ⟨(by intro hf; cases hf), w, hh, h.off, (by intro hf; exact absurd (hb.symm.trans hf) (by decide)), h.row0,
          h.rowk, h.fits, (by intro hf; exact absurd (hb.symm.trans hf) (by decide)), h.len, h.cp, ?_, ?_, fun h => absurd h hc⟩
        · show 0 ≤ (if b = .zero then _ else b : Box).width; split; decide; exact w
        · show 0 ≤ (if b = .zero then _ else b : Box).height; split; decide; exact hh
      · simp only [if_neg hm]
        split
        · refine ⟨(by intro hf; cases hf), w, hh, h.off, (by intro hf; exact absurd (hb.symm.trans hf) (by decide)), h.row0,
            h.rowk, h.fits, (by intro hf; exact absurd (hb.symm.trans hf) (by decide)), h.len, h.cp, iw, ih1, fun h => absurd h hc⟩
        · refine ⟨(by intro hf; cases hf), w, hh, h.off, (by intro hf; exact absurd (hb.symm.trans hf) (by decide)), h.row0,
            h.rowk, h.fits, (by intro hf; exact absurd (hb.symm.trans hf) (by decide)), h.len, h.cp, h.mw, h.mh, fun h => absurd h hc⟩

theorem Inv.startChar {k : Nat} {s : St} (h : Inv k s) : Inv k (startChar s) := by
  unfold Verif.Bdf.startChar
  split
  · exact h.reset k _ _
  · exact h

theorem Inv.setCode {k : Nat} {s : St} (h : Inv k s) (hc : s.chars ≠ 0) (args : Str) : Inv k (setCode s args) := by
  unfold Verif.Bdf.setCode
  split
  · exact h.error _
  · exact ⟨h.box0, h.w0, h.h0, h.off, h.on, h.row0, h.rowk, h.fits, h.before, h.len, h.cp, h.mw, h.mh, fun h => absurd h hc⟩

theorem Inv.setAdvance {k : Nat} {s : St} (h : Inv k s) (hc : s.chars ≠ 0) (args : Str) : Inv k (setAdvance s args) := by
  unfold Verif.Bdf.setAdvance
  split
  · exact h.error _
  · exact ⟨h.box0, h.w0, h.h0, h.off, h.on, h.row0, h.rowk, h.fits, h.before, h.len, h.cp, h.mw, h.mh, fun h => absurd h hc⟩

theorem Inv.step {k : Nat} {s : St} (h : Inv k s) (line args : Str) (cmd : Str)
    (hk : cmd ≠ str "ENDCHAR" → k + 1 < 32768) :
    ∃ s', step s line cmd args = some s' ∧ Inv (if cmd = str "ENDCHAR" then 0 else k + 1) s' := by
  unfold Verif.Bdf.step
  by_cases hc : s.chars = 0
  · have hi := h.head hc
    have any : ∀ j, Inv j s := fun j => { h with rowk := by rw [hi]; exact zrk j }
    simp only [if_pos hc]
    split
    · refine ⟨_, rfl, ?_⟩
      generalize (if cmd = str "ENDCHAR" then 0 else k + 1) = j
      have h := any j
      exact ⟨h.box0, h.w0, h.h0, h.off, h.on, h.row0, h.rowk, h.fits, h.before, h.len, h.cp, h.mw, h.mh, fun _ => hi⟩
    · exact ⟨_, rfl, (any _).bump⟩
  · simp only [if_neg hc]
    by_cases he : cmd = str "ENDCHAR"
    · simp only [if_pos he]
      exact ⟨_, rfl, h.endChar.bump⟩
    · simp only [if_neg he]
      have hk := hk he
      cases hb : s.cur.bitmap with
      | true =>
        obtain ⟨s', e, h'⟩ := h.bitmapRow hb line hk
        simp only [if_pos, e]
        exact ⟨_, rfl, h'.bump⟩
      | false =>
        simp only [Bool.false_eq_true, if_false]
        have up : ∀ {t}, Inv k t → Inv (k + 1) t := fun h => h.weaken (by omega)
        repeat' split
        · exact ⟨_, rfl, up (h.setBox hc hb args).bump⟩
        · exact ⟨_, rfl, up (h.startBitmap hc).bump⟩
        · exact ⟨_, rfl, up h.startChar.bump⟩
        · exact ⟨_, rfl, up (h.setCode hc args).bump⟩
        · exact ⟨_, rfl, up (h.setAdvance hc args).bump⟩
        · exact ⟨_, rfl, up h.bump⟩

/-! ### the whole file -/

theorem Inv.run : ∀ (ls : List Str) {k : Nat} {s : St}, Inv k s → Short k ls → ∃ s' k', run s ls = some s' ∧ Inv k' s' := by
  intro ls
  induction ls with
  | nil => intro k s h _; exact ⟨s, k, rfl, h⟩
  | cons l ls ih =>
    intro k s h hs
    unfold Short at hs
    obtain ⟨s', e, h'⟩ := h.step l (rest l) (word l) (by intro hn; rw [if_neg hn] at hs; exact hs.1)
    unfold Verif.Bdf.run
    rw [e]
    dsimp only
    refine ih h' ?_
    split at hs
    · rename_i hw; rw [if_pos hw]; exact hs
    · rename_i hw; rw [if_neg hw]; exact hs.2

/-- every glyph lies inside the pixels, and every code point leads to one -/
structure Sound (f : Font) : Prop where
  each : ∃ gs, f.each = some gs ∧ (∀ g ∈ gs, 0 ≤ g.1.width ∧ 0 ≤ g.1.height ∧ (g.2.length : Int) = g.1.width * g.1.height) ∧
    (f.texels ≠ [] → gs.length ≤ 65536 → ∀ c ∈ f.codepoints, c.toNat < gs.length)

theorem mapM_some {α β : Type} (f : α → Option β) (P : β → Prop) : ∀ l : List α, (∀ a ∈ l, ∃ b, f a = some b ∧ P b) →
    ∃ bs, l.mapM f = some bs ∧ bs.length = l.length ∧ ∀ b ∈ bs, P b := by
  intro l
  induction l with
  | nil => intro _; exact ⟨[], rfl, rfl, by intro b hb; cases hb⟩
  | cons a l ih =>
    intro h
    obtain ⟨b, e, hb⟩ := h a (by simp)
    obtain ⟨bs, e', hl, hbs⟩ := ih (fun x hx => h x (by simp [hx]))
    refine ⟨b :: bs, ?_, by simp [hl], ?_⟩
    · rw [List.mapM_cons, e, e']; rfl
    · intro x hx
      rcases List.mem_cons.mp hx with rfl | hx
      · exact hb
      · exact hbs x hx

/-- what `finish` does to the glyphs -/
theorem finish_parts (src : Str) (s : St) :
    (finish src s).codepoints = s.codepoints ∧ (finish src s).texels = s.texels ∧
    (finish src s).monoBounds = (if (s.texels.length : Int) = s.monoBounds.stride * s.glyphs.length then s.monoBounds else .zero) ∧
    (finish src s).glyphs = (if (s.texels.length : Int) = s.monoBounds.stride * s.glyphs.length then [] else s.glyphs) ∧
    (finish src s).monoAdvance = (if s.monoAdvance.toInt > 0 then s.monoAdvance else 0) ∧
    (finish src s).advance = (if s.monoAdvance.toInt > 0 then [] else s.advance) := by
  unfold finish
  dsimp only
  repeat' split
  all_goals first | exact ⟨rfl, rfl, rfl, rfl, rfl, rfl⟩ | simp_all [St.error]

theorem zs : Box.zero.stride = 0 := by decide

theorem Inv.sound {k : Nat} {s : St} (h : Inv k s) (src : Str) : Sound (finish src s) := by
  obtain ⟨e1, e2, e3, e4, -, -⟩ := finish_parts src s
  refine ⟨?_⟩
  unfold Font.each
  dsimp only
  rw [e1, e2, e3, e4]
  by_cases hm : (s.texels.length : Int) = s.monoBounds.stride * s.glyphs.length
  · simp only [if_pos hm]
    have st := stride_nonneg h.mw h.mh
    by_cases hz : s.monoBounds.stride = 0
    · simp only [hz, ne_eq, not_true, if_false, List.length_nil, List.range_zero]
      refine ⟨[], rfl, (by intro g hg; cases hg), ?_⟩
      intro hne
      rw [hz, Int.zero_mul] at hm
      exact absurd (List.eq_nil_of_length_eq_zero (by omega)) hne
    · simp only [ne_eq, hz, not_false_eq_true, if_true]
      have hcount : ((s.texels.length : Int).tdiv s.monoBounds.stride).toNat = s.glyphs.length := by
        rw [hm, Int.mul_comm, Int.mul_tdiv_cancel _ hz]; omega
      rw [hcount]
      obtain ⟨bs, e, hl, hP⟩ := mapM_some
        (fun (i : Nat) => if 0 ≤ (i : Int) * s.monoBounds.stride ∧
            (i : Int) * s.monoBounds.stride ≤ (i : Int) * s.monoBounds.stride + s.monoBounds.stride ∧
            (i : Int) * s.monoBounds.stride + s.monoBounds.stride ≤ s.texels.length then
          some (s.monoBounds, (s.texels.drop ((i : Int) * s.monoBounds.stride).toNat).take s.monoBounds.stride.toNat) else none)
        (fun g => 0 ≤ g.1.width ∧ 0 ≤ g.1.height ∧ (g.2.length : Int) = g.1.width * g.1.height)
        (List.range s.glyphs.length) (by
          intro i hi
          have hi := List.mem_range.mp hi
          have f := row_fits st (Int.natCast_nonneg i) (H := s.glyphs.length) (by omega)
          rw [Int.mul_comm s.monoBounds.stride (i : Int)] at f
          refine ⟨_, if_pos ⟨f.1, by omega, by omega⟩, h.mw, h.mh, ?_⟩
          show (((s.texels.drop _).take _).length : Int) = s.monoBounds.stride
          rw [List.length_take, List.length_drop]; omega)
      refine ⟨bs, e, hP, ?_⟩
      intro _ hle c hc
      rw [hl, List.length_range] at hle ⊢
      rw [h.len]
      exact h.cp (by rw [← h.len]; exact hle) c hc
  · simp only [if_neg hm, zs, ne_eq, not_true, if_false]
    obtain ⟨bs, e, hl, hP⟩ := mapM_some
      (fun (i : Nat) => if 0 ≤ ((s.glyphs.getD i ⟨.zero, 0⟩).top : Int) ∧
          ((s.glyphs.getD i ⟨.zero, 0⟩).top : Int) ≤ (s.glyphs.getD i ⟨.zero, 0⟩).top + (s.glyphs.getD i ⟨.zero, 0⟩).box.stride ∧
          (s.glyphs.getD i ⟨.zero, 0⟩).top + (s.glyphs.getD i ⟨.zero, 0⟩).box.stride ≤ s.texels.length then
        some ((s.glyphs.getD i ⟨.zero, 0⟩).box, (s.texels.drop ((s.glyphs.getD i ⟨.zero, 0⟩).top : Int).toNat).take
          (s.glyphs.getD i ⟨.zero, 0⟩).box.stride.toNat) else none)
      (fun g => 0 ≤ g.1.width ∧ 0 ≤ g.1.height ∧ (g.2.length : Int) = g.1.width * g.1.height)
      (List.range s.glyphs.length) (by
        intro i hi
        have hi := List.mem_range.mp hi
        have hg : s.glyphs.getD i ⟨.zero, 0⟩ ∈ s.glyphs := by
          rw [List.getD_eq_getElem?_getD, List.getElem?_eq_getElem hi]; exact List.getElem_mem hi
        generalize s.glyphs.getD i ⟨.zero, 0⟩ = g at hg
        have f := h.fits g hg
        have st := stride_nonneg f.1 f.2.1
        refine ⟨_, if_pos ⟨by omega, by omega, f.2.2⟩, f.1, f.2.1, ?_⟩
        show (((s.texels.drop _).take _).length : Int) = g.box.stride
        rw [List.length_take, List.length_drop]; omega)
    refine ⟨bs, e, hP, ?_⟩
    intro _ hle c hc
    rw [hl, List.length_range] at hle ⊢
    rw [h.len]
    exact h.cp (by rw [← h.len]; exact hle) c hc

/-- C99. As long as no 32768 lines follow one another without an `ENDCHAR`, parsing indexes nothing out of bounds; in the font
it makes every glyph has exactly the pixels of its box; and, when there are pixels at all and at most 65536 glyphs, every
code point leads to a glyph. -/
theorem safe_partial (src : Str) (h : Short 0 (linesOf src)) : ∃ f, parse src = some f ∧ Sound f := by
  obtain ⟨s', k', e, h'⟩ := Inv.init.run _ h
  exact ⟨finish src s', by rw [parse_lines, e]; rfl, h'.sound src⟩

end Verif.Bdf
