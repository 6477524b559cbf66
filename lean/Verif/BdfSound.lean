import Verif.BdfProps
/-! # C99: line by line, and never out of bounds -/
namespace Verif.Bdf

/-! ### lines -/

/-- a line that starts with a space is no command -/
theorem step_space (s : St) (line c1 a1 c2 a2 : Str) (h1 : c1.head? = some (ch ' ')) (h2 : c2.head? = some (ch ' ')) :
    step s line c1 a1 = step s line c2 a2 := by
  have ne : ∀ (c : Str) (w : Str), c.head? = some (ch ' ') → w.head? ≠ some (ch ' ') → c ≠ w := by
    intro c w hc hw e; subst e; exact hw hc
  unfold step
  simp only [if_neg (ne c1 (str "CHARS") h1 (by decide)), if_neg (ne c2 (str "CHARS") h2 (by decide)),
    if_neg (ne c1 (str "ENDCHAR") h1 (by decide)), if_neg (ne c2 (str "ENDCHAR") h2 (by decide)),
    if_neg (ne c1 (str "BBX") h1 (by decide)), if_neg (ne c2 (str "BBX") h2 (by decide)),
    if_neg (ne c1 (str "BITMAP") h1 (by decide)), if_neg (ne c2 (str "BITMAP") h2 (by decide)),
    if_neg (ne c1 (str "STARTCHAR") h1 (by decide)), if_neg (ne c2 (str "STARTCHAR") h2 (by decide)),
    if_neg (ne c1 (str "ENCODING") h1 (by decide)), if_neg (ne c2 (str "ENCODING") h2 (by decide)),
    if_neg (ne c1 (str "DWIDTH") h1 (by decide)), if_neg (ne c2 (str "DWIDTH") h2 (by decide))]

/-- what `space` says of the line so far -/
def Sp (idx0 space : Nat) (acc : Str) : Prop :=
  (ch ' ' ∉ acc ∧ space = 0) ∨
  (∃ a b, acc = a ++ ch ' ' :: b ∧ a ≠ [] ∧ ch ' ' ∉ a ∧ space = idx0 + a.length) ∨
  acc.head? = some (ch ' ')

theorem Sp_step (idx0 space : Nat) (acc : Str) (c : Byte) (h : Sp idx0 space acc) :
    Sp idx0 (if c = ch ' ' ∧ space = 0 then idx0 + acc.length else space) (acc ++ [c]) := by
  rcases h with ⟨h1, h2⟩ | ⟨a, b, e, ha, hn, hs⟩ | h
  · subst h2
    by_cases hc : c = ch ' '
    · rw [if_pos ⟨hc, rfl⟩]
      by_cases he : acc = []
      · right; right; subst he; simp [hc]
      · right; left; exact ⟨acc, [], by rw [hc], he, h1, rfl⟩
    · rw [if_neg (by simp [hc])]
      left
      refine ⟨?_, rfl⟩
      simp only [List.mem_append, List.mem_singleton, not_or]
      exact ⟨h1, fun e => hc e.symm⟩
  · have : 0 < a.length := List.length_pos_iff.mpr ha
    rw [if_neg (by omega)]
    right; left
    exact ⟨a, b ++ [c], by rw [e]; simp, ha, hn, hs⟩
  · right; right
    cases acc with
    | nil => simp at h
    | cons x xs => simpa using h

theorem takeWhile_no (a : Str) (h : ch ' ' ∉ a) : a.takeWhile (· ≠ ch ' ') = a := by
  induction a with
  | nil => rfl
  | cons x xs ih =>
    rw [List.takeWhile_cons, if_pos (by simp; rintro rfl; exact h (by simp)), ih (fun m => h (by simp [m]))]

theorem dropWhile_no (a : Str) (h : ch ' ' ∉ a) : a.dropWhile (· ≠ ch ' ') = [] := by
  induction a with
  | nil => rfl
  | cons x xs ih =>
    rw [List.dropWhile_cons, if_pos (by simp; rintro rfl; exact h (by simp)), ih (fun m => h (by simp [m]))]

theorem word_mid (a b : Str) (h : ch ' ' ∉ a) (ha : a ≠ []) : word (a ++ ch ' ' :: b) = a := by
  unfold word
  rw [if_neg]
  · rw [List.takeWhile_append_of_pos]
    · simp
    · intro x hx; simp; rintro rfl; exact h hx
  · cases a with
    | nil => exact absurd rfl ha
    | cons x xs => simp; rintro rfl; exact h (by simp)

theorem rest_mid (a b : Str) (h : ch ' ' ∉ a) (ha : a ≠ []) : rest (a ++ ch ' ' :: b) = b := by
  unfold rest
  rw [if_neg]
  · rw [List.dropWhile_append_of_pos]
    · simp
    · intro x hx; simp; rintro rfl; exact h hx
  · cases a with
    | nil => exact absurd rfl ha
    | cons x xs => simp; rintro rfl; exact h (by simp)

theorem word_no (a : Str) (h : ch ' ' ∉ a) : word a = a := by
  unfold word; split
  · rfl
  · exact takeWhile_no a h

theorem rest_no (a : Str) (h : ch ' ' ∉ a) : rest a = [] := by
  unfold rest; split
  · rfl
  · rw [dropWhile_no a h]; rfl

theorem Sp_line (s : St) (idx0 space : Nat) (acc : Str) (h : Sp idx0 space acc) :
    step s acc (acc.take (if space > idx0 then space - idx0 else acc.length))
      (acc.drop (if space > idx0 then space - idx0 + 1 else acc.length)) = step s acc (word acc) (rest acc) := by
  rcases h with ⟨h1, h2⟩ | ⟨a, b, e, ha, hn, hs⟩ | h
  · subst h2
    rw [if_neg (by omega), if_neg (by omega), word_no acc h1, rest_no acc h1]
    simp
  · have : 0 < a.length := List.length_pos_iff.mpr ha
    subst hs
    rw [if_pos (by omega), if_pos (by omega), e, word_mid a b hn ha, rest_mid a b hn ha,
      show idx0 + a.length - idx0 = a.length from by omega]
    congr 1
    · simp
    · rw [List.drop_append]; simp
  · apply step_space
    · cases acc with
      | nil => simp at h
      | cons x xs =>
        have hx : x = ch ' ' := by simpa using h
        split
        · rename_i hgt
          obtain ⟨m, hm⟩ : ∃ m, space - idx0 = m + 1 := ⟨space - idx0 - 1, by omega⟩
          rw [hm]; simp [hx]
        · simp [hx]
    · unfold word; rw [if_pos h]; exact h

theorem scan_lines (src : Str) : ∀ (rest pre acc : Str) (s : St) (space : Nat), src = pre ++ acc ++ rest →
    Sp pre.length space acc →
    scan src s pre.length space (pre.length + acc.length) rest = run s (linesFrom acc rest) := by
  intro rest
  induction rest with
  | nil => intro pre acc s space _ _; rfl
  | cons c rest ih =>
    intro pre acc s space e h
    unfold scan linesFrom
    by_cases hc : c = ch '\n'
    · rw [if_neg (by simp [hc]), if_pos hc]
      dsimp only
      have hl : (src.drop pre.length).take (pre.length + acc.length - pre.length) = acc := by
        rw [e, List.append_assoc, List.drop_append, show pre.length + acc.length - pre.length = acc.length from by omega]
        simp
      rw [hl, Sp_line s _ _ _ h]
      unfold run
      cases step s acc (word acc) (Verif.Bdf.rest acc) with
      | none => rfl
      | some s' =>
        dsimp only
        have := ih (pre ++ acc ++ [c]) [] s' 0 (by rw [e]; simp) (Or.inl ⟨by simp, rfl⟩)
        simpa [Nat.add_assoc] using this
    · rw [if_pos hc, if_neg hc]
      have := ih pre (acc ++ [c]) s _ (by rw [e]; simp) (Sp_step pre.length space acc c h)
      simpa [Nat.add_assoc] using this

/-- The parser goes line by line. -/
theorem parse_lines (src : Str) : parse src = (run .init (linesOf src)).map (finish src) := by
  unfold parse linesOf
  have := scan_lines src src [] [] .init 0 (by simp) (Or.inl ⟨by simp, rfl⟩)
  rw [show scan src .init 0 0 0 src = run .init (linesFrom [] src) from by simpa using this]

end Verif.Bdf
