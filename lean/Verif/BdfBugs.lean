import Verif.BdfRead
/-! # C99: finished glyphs stay; and files that are read wrongly -/
namespace Verif.Bdf

/-! ### finished glyphs stay -/

theorem slice_prefix (A X Y : List Byte) (g : Glyph) (h : g.box.stride.toNat = 0 ∨ g.top + g.box.stride.toNat ≤ A.length) :
    slice (A ++ X) g = slice (A ++ Y) g := by
  unfold slice
  rcases h with h | h
  · simp [h]
  · rw [List.drop_append, List.drop_append, List.take_append_of_le_length (by rw [List.length_drop]; omega),
      List.take_append_of_le_length (by rw [List.length_drop]; omega)]

/-- no glyph is lost, none changes -/
def Kept (s s' : St) : Prop := (∃ t, s'.glyphs = s.glyphs ++ t) ∧ ∀ g ∈ s.glyphs, slice s'.texels g = slice s.texels g

theorem Kept.same {s s' : St} (h1 : s'.glyphs = s.glyphs) (h2 : s'.texels = s.texels) : Kept s s' :=
  ⟨⟨[], by simp [h1]⟩, fun g _ => by rw [h2]⟩

theorem Kept.refl (s : St) : Kept s s := Kept.same rfl rfl

theorem Kept.trans {a b c : St} (h : Kept a b) (h' : Kept b c) : Kept a c := by
  obtain ⟨⟨t, e⟩, k⟩ := h
  obtain ⟨⟨t', e'⟩, k'⟩ := h'
  exact ⟨⟨t ++ t', by rw [e', e, List.append_assoc]⟩, fun g hg => by rw [k' g (by rw [e]; simp [hg]), k g hg]⟩

theorem inv_kept {k : Nat} {s s' : St} (h : Inv k s) (line args cmd : Str) (hs : step s line cmd args = some s') : Kept s s' := by
  unfold step at hs
  by_cases hc : s.chars = 0
  · rw [if_pos hc] at hs
    split at hs <;> (cases hs; exact Kept.same rfl rfl)
  rw [if_neg hc] at hs
  by_cases he : cmd = str "ENDCHAR"
  · rw [if_pos he] at hs
    cases hs
    unfold endChar
    dsimp only
    split
    · exact Kept.same rfl rfl
    · split
      · exact Kept.same rfl rfl
      · split
        · exact Kept.same rfl rfl
        · split
          · exact Kept.same rfl rfl
          · exact ⟨⟨_, rfl⟩, fun _ _ => rfl⟩
  rw [if_neg he] at hs
  by_cases hb : s.cur.bitmap = true
  · rw [if_pos hb] at hs
    by_cases hr : s.cur.row.toInt < s.cur.box.height
    · obtain ⟨A, B, C, e, hA, hB, hbr⟩ := bitmapRow_eq h hb line hr
      rw [hbr, Option.map_some] at hs
      cases hs
      refine ⟨⟨[], by simp [St.bump]⟩, fun g hg => ?_⟩
      show slice (A ++ over B line ++ C) g = slice s.texels g
      rw [e, List.append_assoc, List.append_assoc]
      apply slice_prefix
      have f := row_fits h.w0 h.row0 hr
      have fg := h.fits g hg
      have st := stride_nonneg fg.1 fg.2.1
      rcases h.before hb g hg with hz | hz
      · left; omega
      · right; omega
    · unfold bitmapRow at hs
      dsimp only at hs
      rw [if_neg hr, Option.map_some] at hs
      cases hs
      exact Kept.same rfl rfl
  rw [if_neg hb] at hs
  split at hs
  · cases hs
    unfold setBox
    split
    · exact Kept.same rfl rfl
    · dsimp only
      generalize (Box.mk _ _ _ _) = b
      by_cases hw : b.width ≤ 0 ∨ b.height ≤ 0
      · simp only [if_pos hw]
        refine Kept.same ?_ ?_ <;> (simp only [St.bump]; repeat' split) <;> rfl
      · simp only [if_neg hw]
        refine Kept.same ?_ ?_ <;> (simp only [St.bump]; repeat' split) <;> rfl
  · split at hs
    · cases hs
      unfold startBitmap
      split
      · exact Kept.same rfl rfl
      · refine ⟨⟨[], by simp [St.bump]⟩, fun g hg => ?_⟩
        show slice (growTo s.texels _) g = _
        unfold growTo
        have fg := h.fits g hg
        have st := stride_nonneg fg.1 fg.2.1
        have := slice_prefix s.texels (List.replicate (s.texels.length + s.cur.box.stride.toNat - s.texels.length) 0) [] g (Or.inr (by omega))
        rw [this, List.append_nil]
    · split at hs
      · cases hs
        unfold startChar
        split <;> exact Kept.same rfl rfl
      · split at hs
        · cases hs
          unfold setCode
          split <;> exact Kept.same rfl rfl
        · split at hs
          · cases hs
            unfold setAdvance
            split <;> exact Kept.same rfl rfl
          · cases hs; exact Kept.same rfl rfl

theorem inv_run_kept : ∀ (ls : List Str) {k : Nat} {s s' : St}, Inv k s → Short k ls → run s ls = some s' → Kept s s' := by
  intro ls
  induction ls with
  | nil => intro k s s' _ _ e; cases e; exact Kept.refl s
  | cons l ls ih =>
    intro k s s' h hs e
    unfold Short at hs
    obtain ⟨s1, e1, h1⟩ := h.step l (rest l) (word l) (by intro hn; rw [if_neg hn] at hs; exact hs.1)
    rw [run_cons, e1, Option.bind_some] at e
    refine (inv_kept h _ _ _ e1).trans (ih h1 ?_ e)
    split at hs
    · rename_i hw; rw [if_pos hw]; exact hs
    · rename_i hw; rw [if_neg hw]; exact hs.2

/-- What more there is in a file adds glyphs, but takes none away and changes no pixel of one. -/
theorem kept_partial (l1 l2 : List Str) (hs : Short 0 (l1 ++ l2)) (s s' : St) (h : run .init l1 = some s)
    (h' : run .init (l1 ++ l2) = some s') : Kept s s' := by
  have gen : ∀ (l1 : List Str) {k : Nat} {t : St}, Inv k t → Short k (l1 ++ l2) → run t l1 = some s →
      ∃ k', Inv k' s ∧ Short k' l2 := by
    intro l1
    induction l1 with
    | nil => intro k t hi hs e; cases e; exact ⟨k, hi, hs⟩
    | cons l ls ih =>
      intro k t hi hs e
      rw [List.cons_append] at hs
      unfold Short at hs
      obtain ⟨s1, e1, h1⟩ := hi.step l (rest l) (word l) (by intro hn; rw [if_neg hn] at hs; exact hs.1)
      rw [run_cons, e1, Option.bind_some] at e
      refine ih h1 ?_ e
      split at hs
      · rename_i hw; rw [if_pos hw]; exact hs
      · rename_i hw; rw [if_neg hw]; exact hs.2
  obtain ⟨k', hi, hsh⟩ := gen l1 Inv.init hs h
  rw [run_append, h, Option.bind_some] at h'
  exact inv_run_kept l2 hi hsh h'

/-! ### examples -/

def chrA : Chr := ⟨str "A", 65, 6, 5, 2, 0, -1, [str "A8", str "F"]⟩
def chrB : Chr := ⟨str "B", 66, 5, 3, 1, 1, 0, [str "6"]⟩

theorem okA : chrA.Ok := by
  constructor <;> decide
theorem okB : chrB.Ok := by
  constructor <;> decide

example : ∃ f, parse (file [str "STARTFONT 2.1"] [chrA, chrB]) = some f ∧ f.errors = [] ∧
    f.each = some [(chrA.box, [255, 0, 255, 0, 255, 255, 255, 255, 255, 0]), (chrB.box, [0, 255, 255])] := by
  obtain ⟨f, h1, h2, h3, -⟩ := file_read [str "STARTFONT 2.1"] [chrA, chrB] (by decide) (by
    intro c hc
    simp only [List.mem_cons, List.not_mem_nil, or_false] at hc
    rcases hc with rfl | rfl
    · exact okA
    · exact okB) (by simp) (by simp)
  exact ⟨f, h1, h2, h3⟩

example : Short 0 [str "CHARS 1", str "ENDCHAR", str "X"] := by simp only [Short]; decide

/-! ### what goes wrong -/

/-- one pixel, and then rows upon rows -/
def longLines (n : Nat) : List Str :=
  [str "CHARS 1", str "ENCODING 65", str "DWIDTH 1 0", str "BBX 1 1 0 0", str "BITMAP"] ++ List.replicate n (str "8")

def longSt (m : Nat) (t : Byte) : St :=
  ⟨[], [], [], [t], ⟨65, ⟨0, 1, 0, 1⟩, 0, BitVec.ofNat 16 m, 1, true, true, true⟩, 1, ⟨0, 1, 0, 1⟩, 1, 6 + m, []⟩

theorem long_rows (m : Nat) : ∀ n, m + n ≤ 32768 → 0 < m → run (longSt m 255) (List.replicate n (str "8")) = some (longSt (m + n) 255) := by
  intro n
  induction n generalizing m with
  | zero => intro _ _; rfl
  | succ n ih =>
    intro h hm
    rw [List.replicate_succ, run_cons, show word (str "8") = str "8" from rfl, show rest (str "8") = [] from rfl]
    have e : step (longSt m 255) (str "8") (str "8") [] = some (longSt (m + 1) 255) := by
      unfold step
      rw [if_neg (by exact (by decide : ¬ (1 : BitVec 32) = 0)), if_neg (by decide), if_pos (by rfl)]
      unfold bitmapRow
      dsimp only
      rw [if_neg]
      · rw [Option.map_some]
        unfold longSt St.bump
        dsimp only
        rw [show (1 : BitVec 16) = BitVec.ofNat 16 1 from rfl, ← BitVec.ofNat_add]; rfl
      · show ¬ (BitVec.ofNat 16 m).toInt < (Box.mk 0 1 0 1).height
        rw [show (Box.mk 0 1 0 1).height = 1 by decide, ← BitVec.ofInt_natCast, BitVec.toInt_ofInt,
          Int.bmod_eq_of_le (by omega) (by omega)]
        omega
    rw [e, Option.bind_some, ih (m + 1) (by omega) (by omega), show m + 1 + n = m + (n + 1) from by omega]

/-- BUG: the row number has 16 bits. A character with too many rows is an error, but after 32768 of them the number is
negative, and the next row is written in front of the pixels: the index is out of bounds. -/
theorem row_overflow : parse (unlines (longLines 32769)) = none := by
  rw [parse_lines, linesOf_unlines]
  · unfold longLines
    rw [run_append]
    have e0 : run .init [str "CHARS 1", str "ENCODING 65", str "DWIDTH 1 0", str "BBX 1 1 0 0", str "BITMAP"]
        = some (longSt 0 0) := by decide
    rw [e0, Option.bind_some, List.replicate_succ, run_cons]
    have e1 : step (longSt 0 0) (str "8") (word (str "8")) (rest (str "8")) = some (longSt 1 255) := by decide
    rw [e1, Option.bind_some, show 32768 = 32767 + 1 from rfl, ← List.replicate_append_replicate, run_append,
      long_rows 1 32767 (by omega) (by omega), Option.bind_some, List.replicate_one, run_cons]
    have e2 : step (longSt (1 + 32767) 255) (str "8") (word (str "8")) (rest (str "8")) = none := by decide
    rw [e2]; rfl
  · intro l hl
    unfold longLines at hl
    simp only [List.mem_append, List.mem_cons, List.not_mem_nil, or_false, List.mem_replicate, or_assoc] at hl
    rcases hl with rfl | rfl | rfl | rfl | rfl | ⟨-, rfl⟩ <;> decide

/-- BUG: a font whose characters are all empty is taken for one of equal boxes, and has no glyphs: its code points lead nowhere. -/
theorem empty_lost : ∃ f, (run .init [str "CHARS 1", str "ENCODING 1", str "DWIDTH 4 0", str "BBX 0 0 0 0", str "BITMAP", str "ENDCHAR"]).map
    (finish (str "x")) = some f ∧ f.codepoints = [0, 0] ∧ f.each = some [] := by
  refine ⟨_, rfl, by decide, by decide⟩

/-- BUG: the pixels of a rejected character stay. Here `1` has no box and `2` no advance, so that `2` is rejected; but there are
as many pixels as one glyph of `2`'s box has, and so `1` gets the pixels of `2`. -/
theorem wrong_pixels : ∃ f, (run .init [str "CHARS 2", str "ENCODING 1", str "DWIDTH 4 0", str "ENDCHAR",
    str "ENCODING 2", str "BBX 1 1 0 0", str "BITMAP", str "8", str "ENDCHAR"]).map (finish (str "x")) = some f ∧
    f.codepoints = [0, 0] ∧ f.each = some [(⟨0, 1, 0, 1⟩, [255])] ∧
    (f.errors.map Err.why) = [.noAdvance, .announcedMore] := by
  refine ⟨_, rfl, by decide, by decide, by decide⟩

end Verif.Bdf
