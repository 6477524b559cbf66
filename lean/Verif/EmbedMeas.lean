import Verif.EmbedMono
/-! # Fonts written as source code: measuring a character -/
namespace Verif.Embed

/-- the box holds all the points of `Q`, and each side touches one (or is where it started) -/
structure Seen (w h : Nat) (Q : Nat → Nat → Prop) (m : Meas) : Prop where
  all : ∀ x y, Q x y → m.x_min ≤ x ∧ x ≤ m.x_max ∧ m.y_min ≤ y ∧ y ≤ m.y_max
  x0 : m.x_min = w ∨ ∃ y, Q m.x_min y
  x1 : m.x_max = 0 ∨ ∃ y, Q m.x_max y
  y0 : m.y_min = h ∨ ∃ x, Q x m.y_min
  y1 : m.y_max = 0 ∨ ∃ x, Q x m.y_max

theorem Seen.add {w h : Nat} {Q : Nat → Nat → Prop} {m : Meas} (s : Seen w h Q m) (x y : Nat) (b : Bool) :
    Seen w h (fun a c => Q a c ∨ (a = x ∧ c = y ∧ b = true)) (m.add x y b) := by
  cases b with
  | false =>
    have : (fun a c => Q a c ∨ (a = x ∧ c = y ∧ false = true)) = Q := by funext a c; simp
    rw [this]; exact s
  | true =>
    simp only [Meas.add, if_true, and_true]
    refine ⟨?_, ?_, ?_, ?_, ?_⟩
    · rintro a c (h | ⟨rfl, rfl⟩)
      · have := s.all a c h; simp only; omega
      · simp only; omega
    · simp only
      rcases Nat.le_total m.x_min x with h | h
      · rw [Nat.min_eq_left h]
        exact s.x0.imp id fun ⟨y, hy⟩ => ⟨y, .inl hy⟩
      · rw [Nat.min_eq_right h]; exact .inr ⟨y, .inr ⟨rfl, rfl⟩⟩
    · simp only
      rcases Nat.le_total m.x_max x with h | h
      · rw [Nat.max_eq_right h]; exact .inr ⟨y, .inr ⟨rfl, rfl⟩⟩
      · rw [Nat.max_eq_left h]
        exact s.x1.imp id fun ⟨y, hy⟩ => ⟨y, .inl hy⟩
    · simp only
      rcases Nat.le_total m.y_min y with h | h
      · rw [Nat.min_eq_left h]
        exact s.y0.imp id fun ⟨y, hy⟩ => ⟨y, .inl hy⟩
      · rw [Nat.min_eq_right h]; exact .inr ⟨x, .inr ⟨rfl, rfl⟩⟩
    · simp only
      rcases Nat.le_total m.y_max y with h | h
      · rw [Nat.max_eq_right h]; exact .inr ⟨x, .inr ⟨rfl, rfl⟩⟩
      · rw [Nat.max_eq_left h]
        exact s.y1.imp id fun ⟨y, hy⟩ => ⟨y, .inl hy⟩

theorem Seen.congr {w h : Nat} {Q R : Nat → Nat → Prop} {m : Meas} (s : Seen w h Q m) (e : ∀ a c, Q a c ↔ R a c) : Seen w h R m := by
  have : Q = R := by funext a c; exact propext (e a c)
  rw [← this]; exact s

theorem measRow_spec (field : List (BitVec 64)) (w h y : Nat) (L : Nat → Bool) : ∀ (n x offset : Nat) (m : Meas) (Q : Nat → Nat → Prop),
    (∀ j, j < n → bitAt field (offset + j) = some (L (x + j))) → Seen w h Q m →
    ∃ m', measRow field y m x offset n = some (m', offset + n) ∧
      Seen w h (fun a c => Q a c ∨ (c = y ∧ x ≤ a ∧ a < x + n ∧ L a = true)) m' := by
  intro n
  induction n with
  | zero =>
    intro x offset m Q _ s
    exact ⟨m, rfl, s.congr (by intro a c; constructor; exact .inl; rintro (h | ⟨_, _, _, _⟩); exact h; omega)⟩
  | succ n ih =>
    intro x offset m Q hb s
    unfold measRow
    have h0 := hb 0 (by omega)
    rw [Nat.add_zero, Nat.add_zero] at h0
    rw [h0, Option.bind_some]
    obtain ⟨m', e, s'⟩ := ih (x + 1) (offset + 1) _ _ (fun j hj => by
      rw [show offset + 1 + j = offset + (j + 1) by omega, show x + 1 + j = x + (j + 1) by omega]
      exact hb (j + 1) (by omega)) (s.add x y (L x))
    refine ⟨m', by rw [e]; congr 2; omega, s'.congr ?_⟩
    intro a c
    constructor
    · rintro ((h | ⟨rfl, rfl, h⟩) | ⟨rfl, h1, h2, h3⟩)
      · exact .inl h
      · exact .inr ⟨rfl, by omega, by omega, h⟩
      · exact .inr ⟨rfl, by omega, by omega, h3⟩
    · rintro (h | ⟨rfl, h1, h2, h3⟩)
      · exact .inl (.inl h)
      · by_cases he : a = x
        · subst he; exact .inl (.inr ⟨rfl, rfl, h3⟩)
        · exact .inr ⟨rfl, by omega, by omega, h3⟩

theorem measRows_spec (field : List (BitVec 64)) (w h base : Nat) (L : Nat → Nat → Bool)
    (hb : ∀ x y, x < w → y < h → bitAt field (base + (h - 1 - y) * w + x) = some (L x y)) : ∀ (y : Nat) (m : Meas), y ≤ h →
    Seen w h (fun a c => a < w ∧ y ≤ c ∧ c < h ∧ L a c = true) m →
    ∃ m', measRows field w m (base + (h - y) * w) y = some (m', base + h * w) ∧
      Seen w h (fun a c => a < w ∧ c < h ∧ L a c = true) m' := by
  intro y
  induction y with
  | zero => intro m _ s; exact ⟨m, rfl, s.congr (by intro a c; simp)⟩
  | succ y ih =>
    intro m hy s
    unfold measRows
    have e : h - (y + 1) = h - 1 - y := by omega
    rw [e]
    obtain ⟨m1, e1, s1⟩ := measRow_spec field w h y (fun x => L x y) w 0 (base + (h - 1 - y) * w) m _ (fun j hj => by
      rw [Nat.zero_add]; exact hb j y hj (by omega)) s
    rw [e1, Option.bind_some]
    have eo : base + (h - 1 - y) * w + w = base + (h - y) * w := by
      have : h - y = h - 1 - y + 1 := by omega
      rw [this, Nat.succ_mul]; omega
    rw [eo]
    apply ih m1 (by omega)
    apply s1.congr
    intro a c
    constructor
    · rintro (⟨h1, h2, h3, h4⟩ | ⟨rfl, h1, h2, h3⟩)
      · exact ⟨h1, by omega, h3, h4⟩
      · exact ⟨by omega, by omega, by omega, h3⟩
    · rintro ⟨h1, h2, h3, h4⟩
      by_cases he : c = y
      · subst he; exact .inr ⟨rfl, by omega, by omega, h4⟩
      · exact .inl ⟨h1, by omega, h3, h4⟩

/-- A character that is there is measured without fault: the result is the smallest box around its black pixels; of a blank
character the lower left is `w`, `h`. -/
theorem measure_spec (w h : Nat) (cps : List (BitVec 16)) (field : List (BitVec 64)) (c : Char) (index : Nat)
    (hi : cps.idxOf? (BitVec.ofNat 16 c.toNat) = some index) (L : Nat → Nat → Bool)
    (hb : ∀ x y, x < w → y < h → bitAt field (index * (w * h) + (h - 1 - y) * w + x) = some (L x y)) :
    ∃ m, measure w h cps field c = some m ∧
      (∀ x y, x < w → y < h → L x y = true → m.x_min ≤ x ∧ x < m.x_max ∧ m.y_min ≤ y ∧ y < m.y_max) ∧
      (m.x_min = w ∨ ∃ x y, x < w ∧ y < h ∧ L x y = true ∧ m.x_min = x) ∧
      (m.x_max = 1 ∨ ∃ x y, x < w ∧ y < h ∧ L x y = true ∧ m.x_max = x + 1) ∧
      (m.y_min = h ∨ ∃ x y, x < w ∧ y < h ∧ L x y = true ∧ m.y_min = y) ∧
      (m.y_max = 1 ∨ ∃ x y, x < w ∧ y < h ∧ L x y = true ∧ m.y_max = y + 1) := by
  obtain ⟨m, e, s⟩ := measRows_spec field w h (index * (w * h)) L hb h ⟨w, 0, h, 0⟩ (Nat.le_refl _)
    ⟨by rintro a c ⟨_, _, _, _⟩; omega, .inl rfl, .inl rfl, .inl rfl, .inl rfl⟩
  unfold measure
  rw [Nat.sub_self, Nat.zero_mul, Nat.add_zero] at e
  rw [hi, Option.bind_some, e, Option.bind_some]
  rw [if_pos (by simp only; rw [Nat.succ_mul, Nat.mul_comm h w])]
  refine ⟨_, rfl, ?_, ?_, ?_, ?_, ?_⟩
  · intro x y hx hy hl
    have := s.all x y ⟨hx, hy, hl⟩
    simp only; omega
  · exact s.x0.imp id fun ⟨y, h1, h2, h3⟩ => ⟨_, y, h1, h2, h3, rfl⟩
  · exact s.x1.imp (fun h => by simp only; omega) fun ⟨y, h1, h2, h3⟩ => ⟨_, y, h1, h2, h3, rfl⟩
  · exact s.y0.imp id fun ⟨x, h1, h2, h3⟩ => ⟨x, _, h1, h2, h3, rfl⟩
  · exact s.y1.imp (fun h => by simp only; omega) fun ⟨x, h1, h2, h3⟩ => ⟨x, _, h1, h2, h3, rfl⟩

end Verif.Embed
