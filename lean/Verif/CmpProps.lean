import Verif.Cmp
import Verif.PreludeFind
/-!
# C07, C68: legacy comparison and search
-/
namespace Verif.Cmp
open Verif Verif.Prelude

/-! ### the specification -/

/-- the items of a view, each of `w` bytes -/
def items (w : Nat) (m : Mem) (v : View) : List Str := (List.range v.size).map fun i => bytes m (v.data + i * w) w

/-- the items of a view of bytes -/
def chars (m : Mem) (v : View) : Str := bytes m v.data v.size

/-- lexicographic order: a proper prefix comes first; otherwise the first byte that differs decides -/
def Before (a b : Str) : Prop :=
  (∃ c r, b = a ++ c :: r) ∨ ∃ p x y r s, a = p ++ x :: r ∧ b = p ++ y :: s ∧ x.toNat < y.toNat

/-! ### -/

theorem bytes_len (m : Mem) (a n : Nat) : (bytes m a n).length = n := by simp [bytes]

theorem bytes_get (m : Mem) (a n i : Nat) : (bytes m a n)[i]? = if i < n then some (m (a + i)) else none := by
  unfold bytes
  by_cases h : i < n
  · rw [if_pos h, List.getElem?_map, List.getElem?_range h]; rfl
  · rw [if_neg h, List.getElem?_eq_none (by simp; omega)]

theorem bytes_zero (m : Mem) (a : Nat) : bytes m a 0 = [] := rfl

theorem bytes_succ (m : Mem) (a n : Nat) : bytes m a (n + 1) = m a :: bytes m (a + 1) n := by
  apply List.ext_getElem?
  intro i
  cases i with
  | zero => rw [bytes_get]; simp
  | succ i =>
    rw [bytes_get, List.getElem?_cons_succ, bytes_get, show a + (i + 1) = a + 1 + i by omega]
    by_cases h : i < n
    · rw [if_pos h, if_pos (by omega)]
    · rw [if_neg h, if_neg (by omega)]

theorem memcmp_zero (m : Mem) : ∀ (n a b : Nat), memcmp m a b n = 0 ↔ bytes m a n = bytes m b n := by
  intro n
  induction n with
  | zero => intro a b; simp [memcmp, bytes]
  | succ n ih =>
    intro a b
    rw [bytes_succ, bytes_succ, memcmp, List.cons.injEq]
    by_cases h : m a = m b
    · rw [if_neg (by simp [h]), ih]; simp [h]
    · rw [if_pos h]
      constructor
      · intro e
        exact absurd (BitVec.eq_of_toNat_eq (by omega)) h
      · intro e; exact absurd e.1 h

theorem bytes_take (m : Mem) (a n k : Nat) (h : k ≤ n) : (bytes m a n).take k = bytes m a k := by
  apply List.ext_getElem?
  intro i
  rw [List.getElem?_take, bytes_get, bytes_get]
  by_cases hk : i < k
  · rw [if_pos hk, if_pos hk, if_pos (by omega)]
  · rw [if_neg hk, if_neg hk]

theorem bytes_drop (m : Mem) (a n k : Nat) : (bytes m a n).drop k = bytes m (a + k) (n - k) := by
  apply List.ext_getElem?
  intro i
  rw [List.getElem?_drop, bytes_get, bytes_get, Nat.add_assoc]
  by_cases hk : i < n - k
  · rw [if_pos hk, if_pos (by omega)]
  · rw [if_neg hk, if_neg (by omega)]

theorem items_get (w : Nat) (m : Mem) (v : View) (i : Nat) (h : i < v.size) : (items w m v)[i]? = some (bytes m (v.data + i * w) w) := by
  unfold items
  rw [List.getElem?_map, List.getElem?_range h]; rfl

theorem items_len (w : Nat) (m : Mem) (v : View) : (items w m v).length = v.size := by simp [items]

/-- equal items are equal bytes -/
theorem items_bytes (w : Nat) (hw : 0 < w) (m : Mem) (a b : View) (h : items w m a = items w m b) :
    a.size = b.size ∧ bytes m a.data (a.size * w) = bytes m b.data (a.size * w) := by
  have hl : a.size = b.size := by rw [← items_len w m a, h, items_len]
  refine ⟨hl, ?_⟩
  apply List.ext_getElem?
  intro i
  rw [bytes_get, bytes_get]
  by_cases hi : i < a.size * w
  · rw [if_pos hi, if_pos hi]
    have hq : i / w < a.size := (Nat.div_lt_iff_lt_mul hw).2 hi
    have h1 := items_get w m a (i / w) hq
    have h2 := items_get w m b (i / w) (hl ▸ hq)
    rw [h, h2] at h1
    have h3 := congrArg (fun l => l[i % w]?) (Option.some.inj h1)
    simp only [bytes_get, if_pos (Nat.mod_lt i hw)] at h3
    have h4 := Option.some.inj h3
    have e := Nat.div_add_mod i w
    rw [Nat.mul_comm] at e
    rw [Nat.add_assoc, Nat.add_assoc, e] at h4
    rw [h4]
  · rw [if_neg hi, if_neg hi]

theorem items_one (m : Mem) (a b : View) : items 1 m a = items 1 m b ↔ chars m a = chars m b := by
  constructor
  · intro h
    obtain ⟨h1, h2⟩ := items_bytes 1 (by omega) m a b h
    unfold chars
    rw [← h1]; simpa using h2
  · intro h
    have hl : a.size = b.size := by
      have := congrArg List.length h
      unfold chars at this
      rwa [bytes_len, bytes_len] at this
    apply List.ext_getElem?
    intro i
    by_cases hi : i < a.size
    · rw [items_get 1 m a i hi, items_get 1 m b i (hl ▸ hi)]
      have := congrArg (fun l => l[i]?) h
      unfold chars at this
      simp only [bytes_get, if_pos hi, if_pos (hl ▸ hi)] at this
      have := Option.some.inj this
      simp [bytes, this]
    · rw [List.getElem?_eq_none (by rw [items_len]; omega), List.getElem?_eq_none (by rw [items_len]; omega)]

/-! ### C07 -/

/-- **C07** Equal vectors always compare equal, whatever the size of the items. -/
theorem eq_complete (w : Nat) (hw : 0 < w) (m : Mem) (a b : View) (h : items w m a = items w m b) : eq m a b = true ∧ ne m a b = false := by
  obtain ⟨h1, h2⟩ := items_bytes w hw m a b h
  have : eq m a b = true := by
    unfold eq
    dsimp only
    have hle : a.size ≤ a.size * w := Nat.le_mul_of_pos_right _ hw
    have h3 : memcmp m a.data b.data a.size = 0 := by
      rw [memcmp_zero]
      have := congrArg (List.take a.size) h2
      rwa [bytes_take _ _ _ _ hle, bytes_take _ _ _ _ hle] at this
    split
    · rename_i hc
      simp only [h1, ne_eq, not_true_eq_false, decide_false, Bool.not_false, Bool.true_and, Bool.or_false] at hc ⊢
      exact hc
    · exact decide_eq_true h3
  exact ⟨this, by unfold ne; rw [this]; rfl⟩

/-- **C07**, in part: for items of one byte, and unless the two start at the same address with different sizes, `==` holds
exactly when the items are equal, and `!=` exactly when they are not.  Missing: `eq_shared`, `eq_wide`. -/
theorem eq_iff_partial (m : Mem) (a b : View) (h : a.data ≠ b.data ∨ a.size = b.size) :
    (eq m a b = true ↔ items 1 m a = items 1 m b) ∧ (ne m a b = true ↔ items 1 m a ≠ items 1 m b) := by
  have main : eq m a b = true ↔ items 1 m a = items 1 m b := by
    refine ⟨fun e => ?_, fun e => (eq_complete 1 (by omega) m a b e).1⟩
    rw [items_one]
    unfold eq at e
    dsimp only at e
    unfold chars
    split at e
    · rename_i hc
      simp only [Bool.or_eq_true, Bool.and_eq_true, Bool.not_eq_true', decide_eq_true_eq, decide_eq_false_iff_not, Decidable.not_not] at e
      rcases e with e | ⟨e1, e2⟩
      · rcases h with h | h
        · exact absurd e h
        · rw [e, h]
      · rw [← e1, e2]; rfl
    · rename_i hc
      have e := of_decide_eq_true e
      rw [memcmp_zero] at e
      simp only [Bool.or_eq_true, Bool.and_eq_true, Bool.not_eq_true', decide_eq_true_eq, decide_eq_false_iff_not, Decidable.not_not, not_or] at hc
      rw [← hc.2]; exact e
  refine ⟨main, ?_⟩
  unfold ne
  rw [Bool.not_eq_true', ← Bool.not_eq_true, main]

/-- What is missing of C07, first: two views of the same storage always compare equal, also when their sizes differ. -/
theorem eq_shared (w : Nat) (m : Mem) (data s0 s1 : Nat) (h : s0 ≠ s1) :
    eq m ⟨data, s0⟩ ⟨data, s1⟩ = true ∧ items w m ⟨data, s0⟩ ≠ items w m ⟨data, s1⟩ := by
  refine ⟨?_, fun e => h ?_⟩
  · unfold eq; simp
  · have := congrArg List.length e
    rwa [items_len, items_len] at this

/-- What is missing of C07, second: only as many bytes are compared as there are items.  For views apart from each other and
of equal size, `==` is equality of the first `size` bytes. -/
theorem eq_wide (m : Mem) (a b : View) (hd : a.data ≠ b.data) (hs : a.size = b.size) :
    eq m a b = true ↔ bytes m a.data a.size = bytes m b.data a.size := by
  have := (eq_iff_partial m a b (.inl hd)).1
  rw [items_one] at this
  rw [this]
  unfold chars
  rw [hs]

/-- So for items of more than one byte there are vectors of every positive size that compare equal and are not. -/
theorem eq_wide_wrong (w : Nat) (hw : 1 < w) (a b : View) (ha : 0 < a.size) (hs : a.size = b.size) (hdis : a.data + a.size * w ≤ b.data) :
    ∃ m : Mem, eq m a b = true ∧ items w m a ≠ items w m b := by
  have hlt : a.size < a.size * w := by
    have := Nat.mul_lt_mul_of_pos_left hw ha
    omega
  refine ⟨fun k => if k = a.data + (a.size * w - 1) then 1#8 else 0#8, ?_, fun e => ?_⟩
  · rw [eq_wide _ a b (by omega) hs]
    apply List.ext_getElem?
    intro i
    rw [bytes_get, bytes_get]
    by_cases hi : i < a.size
    · rw [if_pos hi, if_pos hi, if_neg (by omega), if_neg (by omega)]
    · rw [if_neg hi, if_neg hi]
  · obtain ⟨_, h2⟩ := items_bytes w (by omega) _ a b e
    have := congrArg (fun l => l[a.size * w - 1]?) h2
    simp only [bytes_get, if_pos (show a.size * w - 1 < a.size * w by omega)] at this
    have := Option.some.inj this
    simp only [if_true] at this
    rw [if_neg (by omega)] at this
    exact absurd this (by decide)

theorem memcmp_sign (m : Mem) : ∀ (n a b : Nat), (memcmp m a b n = 0 ∧ bytes m a n = bytes m b n) ∨
    ∃ k, k < n ∧ bytes m a k = bytes m b k ∧ m (a + k) ≠ m (b + k) ∧ memcmp m a b n = ((m (a + k)).toNat : Int) - (m (b + k)).toNat := by
  intro n
  induction n with
  | zero => intro a b; exact .inl ⟨rfl, rfl⟩
  | succ n ih =>
    intro a b
    rw [memcmp]
    by_cases h : m a = m b
    · rw [if_neg (by simp [h])]
      rcases ih (a + 1) (b + 1) with ⟨h1, h2⟩ | ⟨k, h1, h2, h3, h4⟩
      · exact .inl ⟨h1, by rw [bytes_succ, bytes_succ, h, h2]⟩
      · refine .inr ⟨k + 1, by omega, by rw [bytes_succ, bytes_succ, h, h2], ?_, ?_⟩
        · rwa [show a + (k + 1) = a + 1 + k by omega, show b + (k + 1) = b + 1 + k by omega]
        · rw [h4, show a + (k + 1) = a + 1 + k by omega, show b + (k + 1) = b + 1 + k by omega]
    · rw [if_pos h]
      exact .inr ⟨0, by omega, rfl, h, rfl⟩

theorem bytes_split (m : Mem) (a n k : Nat) (h : k < n) : bytes m a n = bytes m a k ++ m (a + k) :: bytes m (a + k + 1) (n - k - 1) := by
  rw [← List.take_append_drop k (bytes m a n), bytes_take _ _ _ _ (by omega), bytes_drop, show n - k = n - k - 1 + 1 by omega, bytes_succ]
  rfl

theorem strcmp_sign (m : Mem) (a b : View) : (strcmp m a b = 0 ∧ chars m a = chars m b) ∨ (strcmp m a b < 0 ∧ Before (chars m a) (chars m b)) ∨
    (strcmp m a b > 0 ∧ Before (chars m b) (chars m a)) := by
  unfold strcmp chars
  dsimp only
  have hmin : (if a.size < b.size then a.size else b.size) = min a.size b.size := by
    split <;> omega
  rw [hmin]
  rcases memcmp_sign m (min a.size b.size) a.data b.data with ⟨h1, h2⟩ | ⟨k, h1, h2, h3, h4⟩
  · rw [if_neg (by omega)]
    rcases Nat.lt_trichotomy a.size b.size with h | h | h
    · right; left
      refine ⟨by omega, .inl ⟨m (b.data + a.size), bytes m (b.data + a.size + 1) (b.size - a.size - 1), ?_⟩⟩
      rw [show min a.size b.size = a.size by omega] at h2
      rw [h2, ← bytes_split m b.data b.size a.size h]
    · left
      rw [← h, Nat.min_self] at h2
      exact ⟨by omega, by rw [← h]; exact h2⟩
    · right; right
      refine ⟨by omega, .inl ⟨m (a.data + b.size), bytes m (a.data + b.size + 1) (a.size - b.size - 1), ?_⟩⟩
      rw [show min a.size b.size = b.size by omega] at h2
      rw [← h2, ← bytes_split m a.data a.size b.size h]
  · have hne : (m (a.data + k)).toNat ≠ (m (b.data + k)).toNat := fun e => h3 (BitVec.eq_of_toNat_eq e)
    rw [if_pos (by omega), h4]
    right
    have ea := bytes_split m a.data a.size k (by omega)
    have eb := bytes_split m b.data b.size k (by omega)
    rw [← h2] at eb
    rcases Nat.lt_or_gt_of_ne hne with h | h
    · left
      exact ⟨by omega, .inr ⟨_, _, _, _, _, ea, eb, h⟩⟩
    · right
      exact ⟨by omega, .inr ⟨_, _, _, _, _, eb, ea, h⟩⟩

theorem Before.irrefl (a : Str) : ¬ Before a a := by
  rintro (⟨c, r, h⟩ | ⟨p, x, y, r, s, h1, h2, h3⟩)
  · have := congrArg List.length h
    simp at this
  · rw [h1] at h2
    have := List.append_cancel_left h2
    cases this
    omega

theorem Before.asymm {a b : Str} (h : Before a b) : ¬ Before b a := by
  have key : ∀ (p q : Str) (x y u v : Byte) (r s t w : Str), p ++ x :: r = q ++ u :: t → p ++ y :: s = q ++ v :: w → x.toNat < y.toNat → v.toNat < u.toNat → False := by
    intro p
    induction p with
    | nil =>
      intro q x y u v r s t w h1 h2 h3 h4
      cases q with
      | nil => cases h1; cases h2; omega
      | cons c q =>
        simp only [List.nil_append, List.cons_append, List.cons.injEq] at h1 h2
        rw [h1.1, h2.1] at h3; omega
    | cons c p ih =>
      intro q x y u v r s t w h1 h2 h3 h4
      cases q with
      | nil =>
        simp only [List.nil_append, List.cons_append, List.cons.injEq] at h1 h2
        rw [← h1.1, ← h2.1] at h4; omega
      | cons d q =>
        simp only [List.cons_append, List.cons.injEq] at h1 h2
        exact ih q x y u v r s t w h1.2 h2.2 h3 h4
  have mixed : ∀ (a c' : Str) (p r s : Str) (x y : Byte), a = p ++ x :: r → a ++ c' = p ++ y :: s → x = y := by
    intro a c' p r s x y h1 h2
    rw [h1, List.append_assoc] at h2
    have := List.append_cancel_left h2
    cases this; rfl
  rintro (⟨c', r', h'⟩ | ⟨p', x', y', r', s', h1', h2', h3'⟩)
  · rcases h with ⟨c, r, h⟩ | ⟨p, x, y, r, s, h1, h2, h3⟩
    · rw [h] at h'
      have := congrArg List.length h'
      simp at this
    · rw [h'] at h1
      have := mixed b (c' :: r') p s r y x h2 h1
      rw [this] at h3; omega
  · rcases h with ⟨c, r, h⟩ | ⟨p, x, y, r, s, h1, h2, h3⟩
    · rw [h] at h1'
      have := mixed a (c :: r) p' s' r' y' x' h2' h1'
      rw [this] at h3'; omega
    · exact key p p' x y y' x' r s s' r' (h1 ▸ h2') (h2 ▸ h1') h3 h3'

/-- **C07** The order of strings is the lexicographic order of their bytes, whatever storage they share; exactly one of
`<`, `>` and equality holds, and `<=`, `>=` are the negations of `>`, `<`. -/
theorem order (m : Mem) (a b : View) :
    (lt m a b = true ↔ Before (chars m a) (chars m b)) ∧ (gt m a b = true ↔ Before (chars m b) (chars m a)) ∧
    (le m a b = true ↔ ¬ Before (chars m b) (chars m a)) ∧ (ge m a b = true ↔ ¬ Before (chars m a) (chars m b)) ∧
    (le m a b = true ∧ ge m a b = true ↔ chars m a = chars m b) := by
  unfold lt gt le ge
  simp only [decide_eq_true_eq]
  rcases strcmp_sign m a b with ⟨h1, h2⟩ | ⟨h1, h2⟩ | ⟨h1, h2⟩
  · rw [h1, h2]
    have := Before.irrefl (chars m b)
    simp [this]
  · have h3 := Before.asymm h2
    have h4 : chars m a ≠ chars m b := fun e => by rw [e] at h2; exact Before.irrefl _ h2
    refine ⟨⟨fun _ => h2, fun _ => h1⟩, ⟨fun h => by omega, fun h => absurd h h3⟩, ⟨fun _ => h3, fun _ => by omega⟩,
      ⟨fun h => by omega, fun h => absurd h2 h⟩, ⟨fun h => by omega, fun h => absurd h h4⟩⟩
  · have h3 := Before.asymm h2
    have h4 : chars m a ≠ chars m b := fun e => by rw [e] at h2; exact Before.irrefl _ h2
    refine ⟨⟨fun h => by omega, fun h => absurd h h3⟩, ⟨fun _ => h2, fun _ => h1⟩, ⟨fun h => by omega, fun h => absurd h2 h⟩,
      ⟨fun _ => h3, fun _ => by omega⟩, ⟨fun h => by omega, fun h => absurd h h4⟩⟩

/-! ### C68: search -/

theorem occurs_bytes (m : Mem) (a n b k l : Nat) : Occurs (bytes m a n) (bytes m b l) k ↔ k + l ≤ n ∧ bytes m (a + k) l = bytes m b l := by
  rw [occurs_iff, bytes_len, bytes_len]
  constructor
  · rintro ⟨h1, h2⟩
    refine ⟨h1, ?_⟩
    apply List.ext_getElem?
    intro i
    by_cases hi : i < l
    · rw [← h2 i hi, bytes_get, bytes_get, if_pos hi, if_pos (by omega), Nat.add_assoc]
    · rw [bytes_get, bytes_get, if_neg hi, if_neg hi]
  · rintro ⟨h1, h2⟩
    refine ⟨h1, fun j hj => ?_⟩
    rw [← h2, bytes_get, bytes_get, if_pos hj, if_pos (by omega), Nat.add_assoc]

theorem memmem_spec (m : Mem) (h hn n nn : Nat) : ∀ (f k : Nat), hn + 1 - k ≤ f → (∀ j < k, ¬ Occurs (bytes m h hn) (bytes m n nn) j) →
    (memmem m h hn n nn k = none ∧ ∀ j, ¬ Occurs (bytes m h hn) (bytes m n nn) j) ∨
    ∃ i, memmem m h hn n nn k = some i ∧ Occurs (bytes m h hn) (bytes m n nn) i ∧ ∀ j < i, ¬ Occurs (bytes m h hn) (bytes m n nn) j := by
  intro f
  induction f with
  | zero =>
    intro k hf hk
    left
    rw [memmem, if_neg (by omega)]
    exact ⟨rfl, fun j hj => by
      have := (occurs_bytes m h hn n j nn).1 hj
      exact hk j (by omega) hj⟩
  | succ f ih =>
    intro k hf hk
    rw [memmem]
    by_cases hle : k + nn ≤ hn
    · rw [if_pos hle]
      by_cases hc : memcmp m (h + k) n nn = 0
      · rw [if_pos hc]
        rw [memcmp_zero] at hc
        exact .inr ⟨k, rfl, (occurs_bytes ..).2 ⟨hle, hc⟩, hk⟩
      · rw [if_neg hc]
        apply ih (k + 1) (by omega)
        intro j hj
        by_cases hjk : j = k
        · rw [hjk]
          intro ho
          exact hc ((memcmp_zero ..).2 ((occurs_bytes ..).1 ho).2)
        · exact hk j (by omega)
    · rw [if_neg hle]
      left
      exact ⟨rfl, fun j hj => by
        have := (occurs_bytes m h hn n j nn).1 hj
        exact hk j (by omega) hj⟩

/-- **C68** `lfind` gives the index of the first occurrence of the needle, or -1 when there is none; `has` says which. -/
theorem lfind_first (m : Mem) (h n : View) : IsFirst (chars m h) (chars m n) (lfind m h n) ∧
    (has m h n = true ↔ ∃ k, Occurs (chars m h) (chars m n) k) := by
  have main := memmem_spec m h.data h.size n.data n.size _ 0 (Nat.le_refl _) (fun j hj => absurd hj (Nat.not_lt_zero _))
  unfold has lfind chars
  rcases main with ⟨e, hm⟩ | ⟨i, e, ho, hm⟩
  · rw [e]
    exact ⟨.inl ⟨rfl, hm⟩, by simpa using hm⟩
  · rw [e]
    refine ⟨.inr ⟨i, rfl, ho, hm⟩, ?_⟩
    simp only [decide_eq_true_eq]
    exact ⟨fun _ => ⟨i, ho⟩, fun _ => by omega⟩

/-- **C68** within a window: the first occurrence that lies between `start` and `end`, or -1 -/
theorem lfind_window (m : Mem) (h n : View) (start stop : Nat) (h1 : start ≤ stop) (h2 : stop ≤ h.size) : ∃ r, lfindIn m h n start stop = some r ∧
    ((r = -1 ∧ ∀ k, ¬ (start ≤ k ∧ k + n.size ≤ stop ∧ Occurs (chars m h) (chars m n) k)) ∨
     ∃ k : Nat, r = k ∧ (start ≤ k ∧ k + n.size ≤ stop ∧ Occurs (chars m h) (chars m n) k) ∧
       ∀ j < k, ¬ (start ≤ j ∧ j + n.size ≤ stop ∧ Occurs (chars m h) (chars m n) j)) := by
  unfold lfindIn
  dsimp only
  rw [if_neg (by omega)]
  have es : (if (if (start : Int) > 0 then (start : Int) else 0) < h.size then (if (start : Int) > 0 then (start : Int) else 0) else (h.size : Int)) = start := by
    split <;> split <;> omega
  have ez : (if (if (h.size : Int) < stop then (h.size : Int) else stop) > 0 then (if (h.size : Int) < stop then (h.size : Int) else stop) else 0) = (stop : Int) := by
    split <;> split <;> omega
  rw [es, ez, if_neg (by omega)]
  rw [Int.toNat_natCast, show ((stop : Int) - start).toNat = stop - start by omega]
  have tr : ∀ j, Occurs (bytes m (h.data + start) (stop - start)) (bytes m n.data n.size) j ↔
      (start + j + n.size ≤ stop ∧ Occurs (chars m h) (chars m n) (start + j)) := by
    intro j
    unfold chars
    rw [occurs_bytes, occurs_bytes, Nat.add_assoc h.data]
    constructor
    · rintro ⟨a, b⟩; exact ⟨by omega, by omega, b⟩
    · rintro ⟨a, b, c⟩; exact ⟨by omega, c⟩
  rcases memmem_spec m (h.data + start) (stop - start) n.data n.size _ 0 (Nat.le_refl _) (fun j hj => absurd hj (Nat.not_lt_zero _)) with ⟨e, hm⟩ | ⟨i, e, ho, hm⟩
  · rw [e]
    refine ⟨-1, rfl, .inl ⟨rfl, fun k hk => hm (k - start) ((tr _).2 ?_)⟩⟩
    rw [show start + (k - start) = k by omega]
    exact hk.2
  · rw [e]
    refine ⟨_, rfl, .inr ⟨start + i, by push_cast; rfl, ?_, ?_⟩⟩
    · have := (tr i).1 ho
      exact ⟨by omega, this⟩
    · intro j hj hk
      refine hm (j - start) (by omega) ((tr _).2 ?_)
      rw [show start + (j - start) = j by omega]
      exact hk.2

/-- **C68** `lfind` from `start` on is `lfind` from `start` to the end; both refuse positions outside the haystack. -/
theorem lfind_from (m : Mem) (h n : View) (start : Int) : lfindFrom m h n start = lfindIn m h n start h.size ∧
    (lfindFrom m h n start = none ↔ start < 0 ∨ (h.size : Int) < start) := by
  unfold lfindFrom lfindIn
  dsimp only
  by_cases hc : start ≥ 0 ∧ start ≤ h.size
  · rw [if_neg (show ¬ ¬ (start ≥ 0 ∧ start ≤ h.size) by omega)]
    have es : (if (if start > 0 then start else 0) < h.size then (if start > 0 then start else 0) else (h.size : Int)) = start := by
      split <;> split <;> omega
    have ez : (if (if (h.size : Int) < h.size then (h.size : Int) else h.size) > 0 then (if (h.size : Int) < h.size then (h.size : Int) else h.size) else 0) = (h.size : Int) := by
      split <;> split <;> omega
    rw [es, ez, if_neg (by omega), if_neg (by omega)]
    refine ⟨rfl, ?_⟩
    split
    · simp; omega
    · simp; omega
  · rw [if_pos (by omega), if_pos (by omega)]
    simp; omega

theorem sameBytes_iff (m : Mem) : ∀ (n a b : Nat), sameBytes m a b n = true ↔ bytes m a n = bytes m b n := by
  intro n
  induction n with
  | zero => intro a b; simp [sameBytes, bytes]
  | succ n ih =>
    intro a b
    rw [bytes_succ, bytes_succ, sameBytes, List.cons.injEq]
    by_cases h : m a = m b
    · rw [if_neg (by simp [h]), ih]; simp [h]
    · rw [if_pos h]; simp [h]

theorem clamp_eq (start : Int) (size : Nat) : 0 ≤ clamp start size ∧ clamp start size ≤ size ∧ (0 ≤ start → start ≤ size → clamp start size = start) ∧
    (start < 0 → clamp start size = 0) := by
  unfold clamp
  dsimp only
  split <;> split <;> omega

/-- **C68** `lmatch`: the needle occurs at `start`, brought into range. -/
theorem lmatch_iff (m : Mem) (h n : View) (start : Int) : lmatch m h n start = true ↔
    Occurs (chars m h) (chars m n) (max 0 (min start h.size)).toNat := by
  have hc : clamp start h.size = max 0 (min start h.size) := by
    unfold clamp
    dsimp only
    split <;> split <;> omega
  unfold lmatch chars
  dsimp only
  rw [hc, occurs_bytes]
  by_cases hl : (n.size : Int) > h.size - max 0 (min start h.size)
  · rw [if_pos hl]
    simp only [Bool.false_eq_true, false_iff]
    rintro ⟨h1, _⟩
    omega
  · rw [if_neg hl, sameBytes_iff]
    exact ⟨fun e => ⟨by omega, e.symm⟩, fun e => e.2.symm⟩

/-- **C68**, in part: asked `rmatch(haystack, needle, needle.size())`, and with a haystack at least twice as long as the needle,
it says whether the haystack ends with the needle.  Missing: `rmatch_past_end`, `rmatch_short`. -/
theorem rmatch_partial (m : Mem) (h n : View) (h2 : 2 * n.size ≤ h.size) : rmatch m h n n.size = true ↔ ∃ p, chars m h = p ++ chars m n := by
  obtain ⟨_, _, hc, _⟩ := clamp_eq n.size h.size
  unfold rmatch
  dsimp only
  rw [hc (by omega) (by omega), if_neg (by omega), sameBytes_iff]
  unfold chars
  rw [show ((h.size : Int) - n.size).toNat = h.size - n.size by omega]
  constructor
  · intro e
    refine ⟨bytes m h.data (h.size - n.size), ?_⟩
    rw [e]
    have := List.take_append_drop (h.size - n.size) (bytes m h.data h.size)
    rw [bytes_take _ _ _ _ (by omega), bytes_drop, show h.size - (h.size - n.size) = n.size by omega] at this
    exact this.symm
  · rintro ⟨p, e⟩
    have hp : p.length = h.size - n.size := by
      have := congrArg List.length e
      rw [List.length_append, bytes_len, bytes_len] at this
      omega
    have := congrArg (List.drop (h.size - n.size)) e
    rw [bytes_drop, ← hp, List.drop_left, hp, show h.size - (h.size - n.size) = n.size by omega] at this
    exact this.symm

/-- Asked with the default `start`, `rmatch` compares the needle with the memory after the end of the haystack. -/
theorem rmatch_past_end (m : Mem) (h n : View) (hn : n.size ≤ h.size) : rmatch m h n 0 = true ↔ bytes m (h.data + h.size) n.size = chars m n := by
  obtain ⟨_, _, _, _⟩ := clamp_eq 0 h.size
  have hc : clamp 0 h.size = 0 := by unfold clamp; dsimp only; rw [if_pos (by omega), if_pos (by omega)]
  unfold rmatch
  dsimp only
  rw [hc, if_neg (by omega), sameBytes_iff, show ((h.size : Int) - 0).toNat = h.size by omega]
  exact ⟨fun e => e.symm, fun e => e.symm⟩

/-- Asked with the needle's size, it denies that a haystack less than twice as long as the needle ends with it. -/
theorem rmatch_short (m : Mem) (h n : View) (h1 : n.size ≤ h.size) (h2 : h.size < 2 * n.size) : rmatch m h n n.size = false := by
  obtain ⟨_, _, hc, _⟩ := clamp_eq n.size h.size
  unfold rmatch
  dsimp only
  rw [hc (by omega) (by omega), if_pos (by omega)]

/-! non-vacuity -/
/-- a memory that holds a text from address 100 on -/
def textMem (s : Str) : Mem := fun a => (s[a - 100]?).getD 0#8

example : eq (textMem (str "abcabd")) ⟨100, 2⟩ ⟨103, 2⟩ = true ∧ eq (textMem (str "abcabd")) ⟨100, 3⟩ ⟨103, 3⟩ = false ∧
    lt (textMem (str "abcabd")) ⟨100, 3⟩ ⟨103, 3⟩ = true ∧ lt (textMem (str "abcabd")) ⟨100, 2⟩ ⟨100, 3⟩ = true ∧
    eq (textMem (str "abcabd")) ⟨100, 2⟩ ⟨100, 3⟩ = true := by decide +kernel
/-- a byte from 128 up is greater than any ASCII one -/
example : gt (textMem [200#8, 65#8]) ⟨100, 1⟩ ⟨101, 1⟩ = true := by decide +kernel
example : lfindIn (textMem (str "abcabd")) ⟨100, 6⟩ ⟨100, 2⟩ 1 6 = some 3 ∧ lfind (textMem (str "abcabd")) ⟨100, 6⟩ ⟨105, 1⟩ = 5 ∧
    lfindIn (textMem (str "abcabd")) ⟨100, 6⟩ ⟨100, 2⟩ 1 4 = some (-1) := by
  decide +kernel
/-- "abcabd" does not end in "ab", but when "ab" follows it in memory the answer is yes -/
example : rmatch (textMem (str "abcabdab")) ⟨100, 6⟩ ⟨100, 2⟩ 0 = true ∧ lmatch (textMem (str "abcabd")) ⟨100, 6⟩ ⟨103, 2⟩ 0 = true := by decide +kernel

end Verif.Cmp
