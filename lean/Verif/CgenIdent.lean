import Verif.Cgen
import Verif.CgenNameSpec
import Verif.CgenLit
import Verif.CppProps
import Verif.HelpersProps
/-!
# Emitted identifiers and operators, closure ids (C73, C75)
-/
namespace Verif.Cgen
open Verif Verif.Cgen.Spec

theorem identByte_iff : ∀ c : Byte, identByte c = true ↔ (letter c ∨ Spec.digit c) := by decide +kernel

/-- What each byte of a name becomes. -/
def enc1 (c : Byte) : Str := if identByte c then [c] else xHH (u32 c)

theorem identLoop_eq (p r : Str) : identLoop p.length (p ++ r) = some (p.flatMap enc1 ++ r) := by
  generalize hn : p.length = n
  induction n generalizing p r with
  | zero => rw [List.length_eq_zero_iff.1 hn]; rfl
  | succ n ih =>
    have hp : p ≠ [] := by intro h; subst h; simp at hn
    obtain ⟨q, c, rfl⟩ : ∃ q c, p = q ++ [c] := ⟨p.dropLast, p.getLast hp, (List.dropLast_concat_getLast hp).symm⟩
    have hq : q.length = n := by simpa using hn
    subst hq
    rw [identLoop]
    have hg : (q ++ [c] ++ r)[q.length]? = some c := by simp
    rw [hg]
    simp only [Option.bind_eq_bind, Option.bind_some]
    have h1 : (q ++ [c] ++ r).take q.length = q := by simp
    have h2 : (q ++ [c] ++ r).drop (q.length + 1) = r := by
      have : (q ++ [c]).length = q.length + 1 := by simp
      rw [← this, List.drop_left]
    rw [h1, h2, List.append_assoc]
    by_cases hc : identByte c = true
    · rw [if_pos hc, ih q _ rfl]; simp [enc1, hc]
    · rw [if_neg hc, List.append_assoc, ih q _ rfl]; simp [enc1, hc]

theorem valid_identifier_eq (s : Str) : valid_identifier s = Cpp.ID (s.flatMap enc1) := by
  have := identLoop_eq s []
  simp only [List.append_nil] at this
  unfold valid_identifier
  rw [this]; rfl

theorem hex_ident : ∀ b : Byte, isHex b = true → letter b ∨ Spec.digit b := by decide +kernel

theorem enc1_ident (c b : Byte) (hb : b ∈ enc1 c) : letter b ∨ Spec.digit b := by
  unfold enc1 at hb
  split at hb
  · rename_i h
    rw [List.mem_singleton.1 hb]; exact (identByte_iff c).1 h
  · obtain ⟨h1, h2, _⟩ := xHH_ok c
    unfold xHH at hb
    simp only [List.mem_cons, List.not_mem_nil, or_false] at hb
    rcases hb with rfl | rfl | rfl
    · decide
    · exact hex_ident _ h1
    · exact hex_ident _ h2

theorem upper_ident : ∀ b : Byte, letter b ∨ Spec.digit b → letter (Ascii.upperB b) ∨ Spec.digit (Ascii.upperB b) := by
  decide +kernel

theorem mangle_ident (s : Str) (h : Identifier s) : Identifier (Cpp.mangle s) := by
  obtain ⟨c, t, rfl, hc, ht⟩ := h
  cases t with
  | nil => exact ⟨c, [], rfl, hc, by simp⟩
  | cons d u =>
    refine ⟨c, _, rfl, hc, ?_⟩
    intro b hb
    rcases List.mem_cons.1 hb with rfl | hb
    · exact upper_ident d (ht d (by simp))
    · exact ht b (by simp [hb])

/-- **C73, identifiers.** Whatever the fu name - an operator, a generated name with any bytes in it - as long as it is not
empty and does not begin with a digit, the emitted name is a C++ identifier and not a keyword. -/
theorem identifier_valid (s : Str) (hne : s ≠ []) (hd : ∀ c, s.head? = some c → ¬ Spec.digit c) :
    ∃ r, valid_identifier s = some r ∧ Identifier r ∧ ∀ k ∈ Cpp.cpp20, r ≠ str k := by
  rw [valid_identifier_eq]
  obtain ⟨r, hr, hk⟩ := Cpp.ID_not_keyword (s.flatMap enc1)
  refine ⟨r, hr, ?_, hk⟩
  have hi : Identifier (s.flatMap enc1) := by
    obtain ⟨c, t, rfl⟩ := List.exists_cons_of_ne_nil hne
    have hd := hd c rfl
    have ht : ∀ b ∈ t.flatMap enc1, letter b ∨ Spec.digit b := by
      intro b hb
      obtain ⟨x, _, hx⟩ := List.mem_flatMap.1 hb
      exact enc1_ident x b hx
    by_cases hc : identByte c = true
    · refine ⟨c, t.flatMap enc1, by simp [enc1, hc], ((identByte_iff c).1 hc).resolve_right hd, ht⟩
    · refine ⟨ch 'x', _, by simp [enc1, hc, xHH]; rfl, by decide, ?_⟩
      obtain ⟨h1, h2, _⟩ := xHH_ok c
      intro b hb
      simp only [List.mem_cons] at hb
      rcases hb with rfl | rfl | hb
      · exact hex_ident _ h1
      · exact hex_ident _ h2
      · exact ht b hb
  rw [Cpp.ID_eq] at hr
  split at hr
  · rw [← Option.some.inj hr]; exact mangle_ident _ hi
  · rw [← Option.some.inj hr]; exact hi

/-- **C73, distinctness (partial).** Two names without special bytes get the same C++ name only as described in C41; two
names made only of special bytes (operators) only if they are equal. -/
theorem identifier_distinct_partial (a b : Str) (h : valid_identifier a = valid_identifier b) :
    ((∀ c ∈ a, letter c ∨ Spec.digit c) → (∀ c ∈ b, letter c ∨ Spec.digit c) →
      (∀ w ∈ Cpp.words, a ≠ Cpp.mangle w) → (∀ w ∈ Cpp.words, b ≠ Cpp.mangle w) → a = b) ∧
    ((∀ c ∈ a, ¬ (letter c ∨ Spec.digit c)) → (∀ c ∈ b, ¬ (letter c ∨ Spec.digit c)) → a = b) := by
  rw [valid_identifier_eq, valid_identifier_eq] at h
  constructor
  · intro ha hb hwa hwb
    have e : ∀ s : Str, (∀ c ∈ s, letter c ∨ Spec.digit c) → s.flatMap enc1 = s := by
      intro s hs
      induction s with
      | nil => rfl
      | cons c t ih =>
        rw [List.flatMap_cons, ih (fun c hc => hs c (by simp [hc]))]
        simp [enc1, (identByte_iff c).2 (hs c (by simp))]
    rw [e a ha, e b hb] at h
    exact Cpp.ID_distinct_partial a b hwa hwb h
  · intro ha hb
    have nw : ∀ s : Str, (∀ c ∈ s, ¬ (letter c ∨ Spec.digit c)) → s.flatMap enc1 ∉ Cpp.words ∧ ∀ w ∈ Cpp.words, s.flatMap enc1 ≠ Cpp.mangle w := by
      intro s hs
      have hx : s.flatMap enc1 = [] ∨ (s.flatMap enc1).head? = some (ch 'x') ∧ ∃ d, (s.flatMap enc1)[1]? = some d ∧ isHex d = true ∧ d ≠ ch 'O' ∧ d ≠ ch 'o' := by
        cases s with
        | nil => exact .inl rfl
        | cons c t =>
          right
          have hc : identByte c = false := by
            cases h : identByte c with
            | false => rfl
            | true => exact absurd ((identByte_iff c).1 h) (hs c (by simp))
          obtain ⟨h1, _, _⟩ := xHH_ok c
          rw [List.flatMap_cons, enc1, hc]
          refine ⟨rfl, _, rfl, h1, ?_, ?_⟩ <;> (intro e; rw [e] at h1; revert h1; decide)
      have k1 : ∀ w ∈ Cpp.words, w ≠ [] ∧ Cpp.mangle w ≠ [] := by decide +kernel
      have k2 : ∀ w ∈ Cpp.words, (w.head? = some (ch 'x') → w[1]? = some (ch 'o')) ∧
          ((Cpp.mangle w).head? = some (ch 'x') → (Cpp.mangle w)[1]? = some (ch 'O')) := by decide +kernel
      rcases hx with hx | ⟨hx, d, h1, h2, h3, h4⟩
      · rw [hx]; exact ⟨fun hm => (k1 _ hm).1 rfl, fun w hw e => (k1 w hw).2 e.symm⟩
      · constructor
        · intro hm
          have := (k2 _ hm).1 hx
          rw [h1] at this; exact h4 (Option.some.inj this)
        · intro w hw e
          have := (k2 w hw).2 (e ▸ hx)
          rw [← e, h1] at this; exact h3 (Option.some.inj this)
    rw [Cpp.ID_eq, Cpp.ID_eq, if_neg (nw a ha).1, if_neg (nw b hb).1] at h
    replace h := Option.some.inj h
    have x_inj : ∀ c d : Byte, xHH (u32 c) = xHH (u32 d) → c = d := by
      intro c d h
      obtain ⟨_, _, h1⟩ := xHH_ok c
      obtain ⟨_, _, h2⟩ := xHH_ok d
      unfold xHH at h
      simp only [List.cons.injEq, true_and, and_true] at h
      rw [h.1, h.2] at h1
      exact BitVec.eq_of_toNat_eq (h1.symm.trans h2)
    clear nw
    have nc : ∀ c : Byte, ¬ (letter c ∨ Spec.digit c) → enc1 c = xHH (u32 c) := by
      intro c hc
      unfold enc1
      rw [if_neg (fun h => hc ((identByte_iff c).1 h))]
    induction a generalizing b with
    | nil =>
      cases b with
      | nil => rfl
      | cons d u => rw [List.flatMap_cons, nc d (hb d (by simp))] at h; simp [xHH] at h
    | cons c t ih =>
      cases b with
      | nil => rw [List.flatMap_cons, nc c (ha c (by simp))] at h; simp [xHH] at h
      | cons d u =>
        rw [List.flatMap_cons, List.flatMap_cons, nc d (hb d (by simp)), nc c (ha c (by simp))] at h
        have := List.append_inj h (by simp [xHH])
        rw [x_inj c d this.1, ih u (fun c hc => ha c (by simp [hc])) (fun c hc => hb c (by simp [hc])) this.2]

/-- **C73 fails in general**: the operator `+` and the function name `x2B` get the same C++ name. -/
theorem identifier_collides : valid_identifier (str "+") = valid_identifier (str "x2B") ∧ str "+" ≠ str "x2B" := by
  constructor <;> decide +kernel

example : valid_identifier (str "a[]") = some (str "ax5Bx5D") := by decide +kernel
example : ∀ c, (str "a[]").head? = some c → ¬ Spec.digit c := by decide +kernel

/-! ## Operators -/

/-- **C73, operators.** The C++ operator symbol is the first maximal run of bytes that are not letters, digits or
underscores: what stands before it (`postfix` in `postfix++`) and after it is dropped.  A name without such a byte gives
the empty symbol. -/
theorem operator_symbol (p op r : Str) (hp : ∀ c ∈ p, letter c ∨ Spec.digit c) (ho : ∀ c ∈ op, ¬ (letter c ∨ Spec.digit c))
    (hr : ∀ c, r.head? = some c → op ≠ [] ∧ (letter c ∨ Spec.digit c)) :
    valid_operator (p ++ op ++ r) = some op := by
  unfold valid_operator
  have fp : ∀ (a p : Str) (rest : Str), (∀ c ∈ p, letter c ∨ Spec.digit c) →
      forBrk a.length (a ++ p ++ rest).length (a.length, false) (opStep (a ++ p ++ rest)) =
      forBrk (a.length + p.length) (a ++ p ++ rest).length (a.length + p.length, false) (opStep (a ++ p ++ rest)) := by
    intro a p rest h
    induction p generalizing a with
    | nil => simp
    | cons c t ih =>
      conv => lhs; unfold forBrk
      rw [if_pos (by simp)]
      have : opStep (a ++ c :: t ++ rest) a.length (a.length, false) = some (.inl (a.length + 1, false)) := by
        unfold opStep
        simp [(identByte_iff c).2 (h c (by simp))]
      rw [this]
      dsimp only
      have := ih (a ++ [c]) (fun c hc => h c (by simp [hc]))
      simp only [List.length_append, List.length_singleton, List.append_assoc, List.cons_append, List.nil_append] at this ⊢
      rw [this]
      have e : a.length + 1 + t.length = a.length + (c :: t).length := by simp; omega
      rw [e]
  have fo : ∀ (a op : Str) (rest : Str) (st : Nat) (b : Bool), (∀ c ∈ op, ¬ (letter c ∨ Spec.digit c)) →
      forBrk a.length (a ++ op ++ rest).length (st, b) (opStep (a ++ op ++ rest)) =
      forBrk (a.length + op.length) (a ++ op ++ rest).length (st, if op = [] then b else true) (opStep (a ++ op ++ rest)) := by
    intro a op rest st b h
    induction op generalizing a b with
    | nil => simp
    | cons c t ih =>
      conv => lhs; unfold forBrk
      rw [if_pos (by simp)]
      have : opStep (a ++ c :: t ++ rest) a.length (st, b) = some (.inl (st, true)) := by
        have hc : identByte c = false := by
          cases h' : identByte c with
          | false => rfl
          | true => exact absurd ((identByte_iff c).1 h') (h c (by simp))
        unfold opStep
        simp [hc]
      rw [this]
      dsimp only
      have := ih (a ++ [c]) true (fun c hc => h c (by simp [hc]))
      simp only [List.length_append, List.length_singleton, List.append_assoc, List.cons_append, List.nil_append] at this ⊢
      rw [this]
      have e : a.length + 1 + t.length = a.length + (c :: t).length := by simp; omega
      rw [e]
      simp
  have h1 := fp [] p (op ++ r) hp
  have h2 := fo p op r p.length false ho
  simp only [List.nil_append, List.length_nil, Nat.zero_add, ← List.append_assoc] at h1
  rw [h1, h2]
  unfold forBrk
  cases r with
  | nil =>
    rw [if_neg (by simp)]
    simp only [List.append_nil, Option.bind_eq_bind, Option.bind_some]
    by_cases h0 : p.length = 0
    · rw [List.length_eq_zero_iff.1 h0]; simp
    · simp [h0]
  | cons c t =>
    obtain ⟨hne, hc⟩ := hr c rfl
    rw [if_pos (by simp)]
    have : opStep (p ++ op ++ c :: t) (p.length + op.length) (p.length, if op = [] then false else true) = some (.inr op) := by
      unfold opStep
      have e : (p ++ op ++ c :: t)[p.length + op.length]? = some c := by
        rw [← List.length_append]; simp
      have e2 : (p ++ op ++ c :: t).take (p.length + op.length) = p ++ op := by
        rw [← List.length_append, List.take_left]
      simp only [e, Option.bind_eq_bind, Option.bind_some, (identByte_iff c).2 hc, if_true, hne, if_false, Bool.not_true, Bool.false_eq_true, e2]
      simp
    rw [this]
    rfl

example : valid_operator (str "postfix++") = some (str "++") ∧ valid_operator (str "<=>") = some (str "<=>") ∧
    valid_operator (str "abc") = some [] := by decide +kernel

/-! ## Closure ids -/

/-- **C75.** The name under which a closure is passed around gives back exactly the function, module, variable and revision
it was made from, whatever their numbers (negative local numbers too). -/
theorem closure_roundtrip (c : ClosureID) (h : 0 < c.globid.toInt) :
    ∃ id, serialize c = some id ∧ tryParseClosureID id = .ok (some c) := by
  unfold serialize
  rw [if_neg (by omega)]
  refine ⟨_, rfl, ?_⟩
  have r1 := Helpers.varint_roundtrip [ch '`'] (Helpers.enc c.revision ++ Helpers.enc c.globid ++ Helpers.enc c.locid) c.modid
  have r2 := Helpers.varint_roundtrip ([ch '`'] ++ Helpers.enc c.modid) (Helpers.enc c.globid ++ Helpers.enc c.locid) c.revision
  have r3 := Helpers.varint_roundtrip ([ch '`'] ++ Helpers.enc c.modid ++ Helpers.enc c.revision) (Helpers.enc c.locid) c.globid
  have r4 := Helpers.varint_roundtrip ([ch '`'] ++ Helpers.enc c.modid ++ Helpers.enc c.revision ++ Helpers.enc c.globid) [] c.locid
  have ne : ∀ v, 1 ≤ (Helpers.enc v).length := by
    intro v
    obtain ⟨hi, c, e, -⟩ := Helpers.varint_alphabet v
    rw [e]; simp
  simp only [Helpers.appendVarint_eq, List.append_assoc, List.append_nil] at r1 r2 r3 r4 ⊢
  unfold tryParseClosureID
  rw [if_pos]
  · rw [show ([ch '`'] : Str).length = 1 from rfl] at r1
    rw [r1]
    simp only [Bind.bind, Except.bind]
    rw [r2]
    dsimp only
    rw [r3]
    dsimp only
    rw [r4]
    dsimp only
    rw [if_pos rfl]
  · refine ⟨?_, rfl⟩
    have h1 := ne c.modid
    have h2 := ne c.revision
    have h3 := ne c.globid
    simp only [List.length_append, List.length_singleton]
    omega

/-- A name that does not begin with a backtick - any name a program can spell - is not taken for a closure. -/
theorem not_closure (id : Str) (h : id.head? ≠ some (ch '`')) : tryParseClosureID id = .ok none := by
  unfold tryParseClosureID
  rw [if_neg]
  rintro ⟨-, h2⟩
  rw [← List.head?_eq_getElem?] at h2
  exact h h2

example : serialize ⟨3#32, 100#32, -2#32, 0#32⟩ = some (str "`30" ++ [0xe4#8] ++ str "0" ++ [0xfe#8, 0xff#8, 0xff#8, 0xff#8] ++ str "F") := by
  decide +kernel

end Verif.Cgen
