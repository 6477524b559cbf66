import Verif.LexerLemmas
import Mathlib.Tactic.Tauto
/-!
# Numbers
-/
namespace Verif.Lexer
open Verif

/-- The locals `hex`, `ob` and `max` for each base. -/
def Base.isHex : Base → Bool | .hex => true | _ => false
def Base.isOb : Base → Bool | .oct | .bin => true | _ => false
def Base.max : Base → Byte | .oct => ch '7' | .bin => ch '1' | _ => ch '9'

theorem dig_eq (B : Base) (b : Byte) : dig B.isHex B.max b = B.digit b := by
  cases B
  · have := byte_all (fun b => dig Base.dec.isHex Base.dec.max b == Base.dec.digit b) (by decide +kernel) b
    simpa using this
  · have := byte_all (fun b => dig Base.hex.isHex Base.hex.max b == Base.hex.digit b) (by decide +kernel) b
    simpa using this
  · have := byte_all (fun b => dig Base.oct.isHex Base.oct.max b == Base.oct.digit b) (by decide +kernel) b
    simpa using this
  · have := byte_all (fun b => dig Base.bin.isHex Base.bin.max b == Base.bin.digit b) (by decide +kernel) b
    simpa using this

theorem dig9_of_digit (B : Base) (b : Byte) (h : B.digit b = true) : dig B.isHex (ch '9') b = true := by
  cases B
  · rw [← dig_eq] at h; exact h
  · rw [← dig_eq] at h; exact h
  · have := byte_all (fun b => !(Base.oct.digit b) || dig Base.oct.isHex (ch '9') b) (by decide +kernel) b
    simp only [h] at this; simpa using this
  · have := byte_all (fun b => !(Base.bin.digit b) || dig Base.bin.isHex (ch '9') b) (by decide +kernel) b
    simp only [h] at this; simpa using this

theorem dig9_eq (B : Base) (hB : B.isOb = false) (b : Byte) : dig B.isHex (ch '9') b = B.digit b := by
  cases B <;> first | (simp [Base.isOb] at hB; done) | exact dig_eq _ b

theorem mark_eq (B : Base) (hB : B.isOb = false) (b : Byte) : expMark B.isHex b = B.mark b := by
  cases B <;> first | (simp [Base.isOb] at hB; done) | (simp only [expMark, Base.mark, Base.isHex]; simp; rfl)

/-- None of the separators is a digit, in any base. -/
theorem seps_not_digit (B : Base) : ∀ c ∈ str "_.+-xXoOpP", B.digit c = false := by
  cases B <;> decide

theorem mark_facts (B : Base) (m : Byte) (h : B.mark m = true) :
    B.digit m = false ∧ m ≠ ch '.' ∧ m ≠ ch '_' ∧ B.isOb = false := by
  cases B
  · simp [Base.mark] at h; rcases h with rfl | rfl <;> decide
  · simp [Base.mark] at h; rcases h with rfl | rfl <;> decide
  · simp [Base.mark] at h
  · simp [Base.mark] at h

theorem peek_digit_nil (B : Base) : B.digit 0#8 = false := by cases B <;> decide

/-! ### The loop, one character at a time -/

section
variable {src : Str} {B : Base} {dot exp : Bool} {idx : Nat}

/-- The loop of a number in base `B`. -/
def loop (src : Str) (B : Base) (dot exp : Bool) (idx : Nat) := numLoop src B.isHex B.isOb B.max dot exp idx

theorem loop_digit {d : Byte} {t : Str} (h : src.drop idx = d :: t) (hd : B.digit d = true) :
    loop src B dot exp idx = loop src B dot exp (idx + 1) := by
  conv => lhs; unfold loop; rw [numLoop]
  rw [if_pos (drop_cons h).1, rd_cons h]
  simp only [bind, Except.bind, dig_eq, hd, if_true]
  rfl

theorem loop_under {d : Byte} {t : Str} (h : src.drop idx = ch '_' :: d :: t) (hB : B.isOb = false) (hd : B.digit d = true) :
    loop src B dot exp idx = loop src B dot exp (idx + 2) := by
  conv => lhs; unfold loop; rw [numLoop]
  rw [if_pos (drop_cons h).1, rd_cons h]
  have h2 := (drop_cons h).2.2
  simp only [bind, Except.bind, dig_eq, mark_eq B hB, hB]
  rw [if_neg (by rw [seps_not_digit B _ (by decide)]; simp), if_neg (by simp), if_neg (by decide),
    if_neg (by cases B <;> decide), if_pos trivial, peek_cons h2]
  dsimp only
  rw [dig9_eq B hB, hd, if_neg (by simp)]
  have := loop_digit (dot := dot) (exp := exp) h2 hd
  unfold loop at this ⊢; rw [hB] at this ⊢; exact this

theorem loop_end {rest : Str} (h : src.drop idx = rest) (h1 : ∀ d t, rest = d :: t → ¬ B.digit d)
    (h2 : B.isOb = false → ∀ c d t, rest = c :: d :: t → c = ch '_' ∨ c = ch '.' → ¬ B.digit d)
    (h3 : ∀ m t, rest = m :: t → ¬ B.mark m) : loop src B dot exp idx = .ok (dot, exp, idx) := by
  unfold loop; rw [numLoop]
  cases rest with
  | nil => rw [if_neg (drop_nil h)]
  | cons c t =>
    rw [if_pos (drop_cons h).1, rd_cons h]
    have h4 := (drop_cons h).2.2
    have hpk : ∃ e, peek src (idx + 1) = .ok e ∧ (B.isOb = false → c = ch '_' ∨ c = ch '.' → B.digit e = false) := by
      cases t with
      | nil => exact ⟨_, peek_nil h4, fun _ _ => peek_digit_nil B⟩
      | cons d u => exact ⟨_, peek_cons h4, fun hB hc => by have := h2 hB c d u rfl hc; simpa using this⟩
    obtain ⟨e, he, hne⟩ := hpk
    simp only [bind, Except.bind, dig_eq]
    rw [if_neg (h1 c t rfl)]
    cases hB : B.isOb with
    | true => rw [if_pos rfl]
    | false =>
      rw [if_neg (by simp), mark_eq B hB, if_neg (h3 c t rfl), he]
      dsimp only
      rw [dig9_eq B hB]
      split_ifs with c1 c2 c3 c4 <;> first | rfl | skip
      all_goals (exfalso; simp_all)

theorem loop_dot {d : Byte} {t : Str} (h : src.drop idx = ch '.' :: d :: t) (hB : B.isOb = false) (hd : B.digit d = true) :
    loop src B dot exp idx = if dot || exp then .error .fail else loop src B true exp (idx + 1) := by
  conv => lhs; unfold loop; rw [numLoop]
  rw [if_pos (drop_cons h).1, rd_cons h]
  have h2 := (drop_cons h).2.2
  simp only [bind, Except.bind, dig_eq, mark_eq B hB, hB]
  rw [if_neg (by rw [seps_not_digit B _ (by decide)]; simp), if_neg (by simp), if_pos trivial, peek_cons h2]
  dsimp only
  rw [dig9_eq B hB, hd, if_neg (by simp)]
  unfold loop; rw [hB]

/-- The characters after an exponent mark: an optional sign. -/
theorem sign_split (t : Str) : ∃ (s : Option Byte) (u : Str), t = s.toList ++ u ∧ (∀ c, s = some c → c = ch '+' ∨ c = ch '-') ∧
    (s = none → ∀ c v, u = c :: v → c ≠ ch '+' ∧ c ≠ ch '-') := by
  cases t with
  | nil => exact ⟨none, [], rfl, by simp, by simp⟩
  | cons c v =>
    by_cases hc : c = ch '+' ∨ c = ch '-'
    · exact ⟨some c, v, rfl, by rintro _ ⟨⟩; exact hc, by simp⟩
    · refine ⟨none, c :: v, rfl, by simp, ?_⟩
      rintro - _ _ ⟨⟩; exact not_or.mp hc

theorem loop_mark {m : Byte} {s : Option Byte} {u : Str} (h : src.drop idx = m :: (s.toList ++ u)) (hm : B.mark m = true)
    (hs : ∀ c, s = some c → c = ch '+' ∨ c = ch '-') (hs' : s = none → ∀ c v, u = c :: v → c ≠ ch '+' ∧ c ≠ ch '-') :
    loop src B dot exp idx =
      if exp then .error .fail else loop src B dot true (idx + (m :: s.toList).length) := by
  obtain ⟨f1, f2, f3, hB⟩ := mark_facts B m hm
  conv => lhs; unfold loop; rw [numLoop]
  rw [if_pos (drop_cons h).1, rd_cons h]
  have h2 := (drop_cons h).2.2
  simp only [bind, Except.bind, dig_eq, mark_eq B hB, hB]
  rw [if_neg (by simp [f1]), if_neg (by simp), if_neg f2, if_pos hm]
  cases exp with
  | true => rfl
  | false =>
    simp only [Bool.false_eq_true, if_false]
    have : expSign src (idx + 1) = .ok (idx + (m :: s.toList).length) := by
      unfold expSign
      cases s with
      | some c =>
        have h3 : src.drop (idx + 1) = c :: u := by simpa using h2
        rw [if_pos (drop_cons h3).1, rd_cons h3]
        simp only [bind, Except.bind]
        rw [if_pos (hs c rfl).symm]; rfl
      | none =>
        have h3 : src.drop (idx + 1) = u := by simpa using h2
        cases u with
        | nil => rw [if_neg (drop_nil h3)]; rfl
        | cons c v =>
          rw [if_pos (drop_cons h3).1, rd_cons h3]
          simp only [bind, Except.bind]
          rw [if_neg (by have := hs' rfl c v rfl; tauto)]; rfl
    rw [this]
    dsimp only
    rw [if_pos (by simp only [List.length_cons]; omega)]
    unfold loop; rw [hB]

end

/-! ### Groups of digits -/

theorem digs_cons (d : Bool × Byte) (ds : Digs) :
    Digs.text (d :: ds) = (if d.1 then [ch '_', d.2] else [d.2]) ++ Digs.text ds := by
  simp [Digs.text]

theorem loop_digs {src : Str} {B : Base} (dot exp : Bool) (ds : Digs) (rest : Str) (idx : Nat)
    (h : src.drop idx = Digs.text ds ++ rest) (hd : ∀ d ∈ ds, B.digit d.2) (hob : B.isOb = true → ∀ d ∈ ds, d.1 = false) :
    loop src B dot exp idx = loop src B dot exp (idx + (Digs.text ds).length) := by
  induction ds generalizing idx with
  | nil => rfl
  | cons d ds ih =>
    obtain ⟨f, d⟩ := d
    have hdd : B.digit d = true := hd (f, d) (by simp)
    rw [digs_cons] at h ⊢
    have ih' := fun i hi => ih i hi (fun e he => hd e (by simp [he])) (fun hB e he => hob hB e (by simp [he]))
    cases f with
    | false =>
      have h' : src.drop idx = d :: (Digs.text ds ++ rest) := by simpa using h
      rw [loop_digit h' hdd, ih' (idx + 1) (drop_cons h').2.2]
      congr 1; simp; omega
    | true =>
      have hB : B.isOb = false := by
        cases hB : B.isOb with
        | false => rfl
        | true => have := hob hB (true, d) (by simp); simp at this
      have h' : src.drop idx = ch '_' :: d :: (Digs.text ds ++ rest) := by simpa using h
      rw [loop_under h' hB hdd, ih' (idx + 2) (drop_cons (drop_cons h').2.2).2.2]
      congr 1; simp; omega

/-- Every text starts with a longest group of digits. -/
theorem digs_split (B : Base) (s : Str) : ∃ (ds : Digs) (rest : Str), s = Digs.text ds ++ rest ∧ (∀ d ∈ ds, B.digit d.2 = true) ∧
    (B.isOb = true → ∀ d ∈ ds, d.1 = false) ∧ (∀ d t, rest = d :: t → ¬ B.digit d) ∧
    (B.isOb = false → ∀ d t, rest = ch '_' :: d :: t → ¬ B.digit d) := by
  induction hn : s.length using Nat.strongRecOn generalizing s with
  | _ n ih =>
    subst hn
    cases s with
    | nil => exact ⟨[], [], rfl, by simp, by simp, by simp, by simp⟩
    | cons c t =>
      by_cases hc : B.digit c = true
      · obtain ⟨ds, rest, e, h1, h2, h3, h4⟩ := ih t.length (by simp) t rfl
        refine ⟨(false, c) :: ds, rest, by rw [digs_cons, e]; rfl, ?_, ?_, h3, h4⟩
        · intro d hd; simp at hd; rcases hd with rfl | hd
          · exact hc
          · exact h1 d hd
        · intro hB d hd; simp at hd; rcases hd with rfl | hd
          · rfl
          · exact h2 hB d hd
      · by_cases hu : B.isOb = false ∧ c = ch '_' ∧ ∃ d u, t = d :: u ∧ B.digit d = true
        · obtain ⟨hB, rfl, d, u, rfl, hd⟩ := hu
          obtain ⟨ds, rest, e, h1, h2, h3, h4⟩ := ih u.length (by simp; omega) u rfl
          refine ⟨(true, d) :: ds, rest, by rw [digs_cons, e]; rfl, ?_, by simp [hB], h3, h4⟩
          intro e he; simp at he; rcases he with rfl | he
          · exact hd
          · exact h1 e he
        · refine ⟨[], c :: t, rfl, by simp, by simp, ?_, ?_⟩
          · rintro _ _ ⟨⟩; exact hc
          · rintro hB d u ⟨⟩ hd; exact hu ⟨hB, rfl, d, u, rfl, hd⟩

theorem digs_last (B : Base) (ds : Digs) (hne : ds ≠ []) (hd : ∀ d ∈ ds, B.digit d.2 = true) :
    ∃ pre l, Digs.text ds = pre ++ [l] ∧ B.digit l = true := by
  induction ds with
  | nil => exact absurd rfl hne
  | cons d ds ih =>
    rw [digs_cons]
    cases ds with
    | nil =>
      obtain ⟨f, d⟩ := d
      have := hd (f, d) (by simp)
      cases f
      · exact ⟨[], d, by simp [Digs.text], this⟩
      · exact ⟨[ch '_'], d, by simp [Digs.text], this⟩
    | cons e ds =>
      obtain ⟨pre, l, h1, h2⟩ := ih (by simp) (fun x hx => hd x (by simp at hx ⊢; right; exact hx))
      exact ⟨_ ++ pre, l, by rw [h1, List.append_assoc], h2⟩

end Verif.Lexer
