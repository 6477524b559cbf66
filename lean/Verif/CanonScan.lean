import Verif.CanonSpec
/-! # C33: splitting names at their separators -/
namespace Verif.Canon
open Verif Verif.Helpers

/-! ### the budget of `assignF` is never used up -/

theorem slice_length {s : Str} {i j : Nat} {x : Str} (e : slice s i j = .ok x) : x.length = j - i ∧ i ≤ j ∧ j ≤ s.length := by
  unfold slice at e
  split at e
  · cases e
    rename_i h
    rw [List.length_drop, List.length_take]
    omega
  · cases e

theorem zipArgs_congr (rec rec' : Str → Str → Except Err Bool) (host guest : Str)
    (hr : ∀ h g, g.length ≤ guest.length → rec h g = rec' h g) (h0 g0 : Nat) :
    zipArgs rec host guest h0 g0 = zipArgs rec' host guest h0 g0 := by
  induction hn : host.length - h0 using Nat.strongRecOn generalizing h0 g0 with
  | _ n ih =>
    unfold zipArgs
    dsimp only
    split
    · rfl
    · split
      · rfl
      · split
        · rfl
        · rename_i hi _ _ gi hg
          have := slice_length hg
          rw [hr hi gi (by omega)]
          split
          · rfl
          · rfl
          · split
            · rfl
            · rename_i hl
              have h2 := scan_offset host (ch ':') h0 0 false
              have h3 := h2.2 (by simpa using hl)
              exact ih _ (by omega) _ _ rfl

theorem eachSub_congr {β : Type} (pattern : Str) (visit visit' : Sub → Except Err (Option β))
    (hv : ∀ s : Sub, s.text.length ≤ pattern.length → visit s = visit' s) (offset : Nat) :
    eachSubFrom pattern visit offset = eachSubFrom pattern visit' offset := by
  induction hn : pattern.length - offset using Nat.strongRecOn generalizing offset with
  | _ n ih =>
    rw [eachSubFrom, eachSubFrom]
    split
    · rfl
    · rename_i specOf start he
      dsimp only
      split
      · rfl
      · rename_i text ht
        have := slice_length ht
        rw [hv _ (by simp only; omega)]
        split
        · rfl
        · rfl
        · split
          · rfl
          · rename_i hl
            have h1 := parseGlobal_offset he
            have h2 := scan_offset pattern (ch '|') start 0 false
            have h3 := h2.2 (by simpa using hl)
            exact ih _ (by omega) _ rfl

theorem matchSub_congr (rec rec' : Str → Str → Except Err Bool) (host guest : Sub)
    (hr : ∀ h g, g.length ≤ guest.text.length → rec h g = rec' h g) : matchSub rec host guest = matchSub rec' host guest := by
  unfold matchSub
  rw [zipArgs_congr rec rec' host.text guest.text hr]

theorem assignStep_congr (rec rec' : Str → Str → Except Err Bool) (host guest : Str)
    (hr : ∀ h g, g.length < guest.length → rec h g = rec' h g) : assignStep rec host guest = assignStep rec' host guest := by
  unfold assignStep
  split
  · rename_i hnp
    split
    · rename_i hs
      split
      · split
        · rfl
        · split
          · rfl
          · rename_i g hg
            have := slice_length hg
            have : guest ≠ [] := by rintro rfl; simp [startsWith] at hs
            have := List.length_pos_iff.2 this
            exact hr _ _ (by omega)
      · rfl
    · rfl
  · rename_i hp
    dsimp only
    split
    · rfl
    · split
      · rfl
      · split
        · rfl
        · split
          · rfl
          · rename_i gp hg
            have hl := slice_length hg
            have : guest ≠ [] := by rintro rfl; simp [endsWith] at hp
            have := List.length_pos_iff.2 this
            have : matchHost rec gp = matchHost rec' gp := by
              funext s
              unfold matchHost eachSubPattern
              rw [eachSub_congr gp _ (matchSub rec' s) (fun t ht => matchSub_congr _ _ _ _ fun h g hg' => hr h g (by omega))]
            rw [this]

/-- Any budget above the guest's length gives the same answer. -/
theorem budget_enough (n : Nat) (host guest : Str) (h : guest.length < n) : assignF n host guest = isCanonAssignable host guest := by
  have key : ∀ n m host guest, guest.length < n → guest.length < m → assignF n host guest = assignF m host guest := by
    intro n
    induction n with
    | zero => intro m host guest h; omega
    | succ n ih =>
      intro m host guest h1 h2
      cases m with
      | zero => omega
      | succ m =>
        unfold assignF
        exact assignStep_congr _ _ _ _ fun h g hg => ih m h g (by omega) (by omega)
  exact key _ _ _ _ h (by omega)

/-- `isCanonAssignable` is the recursive function of the source. -/
theorem assign_eq (host guest : Str) : isCanonAssignable host guest = assignStep isCanonAssignable host guest := by
  show assignStep (assignF guest.length) host guest = _
  exact assignStep_congr _ _ _ _ fun h g hg => budget_enough _ _ _ hg

/-! ### walking over balanced text -/

/-- `scan` crosses `s` without stopping, from any depth of at least `lo` -/
def Walk (sep : Byte) (lo : Int) (s : Str) : Prop :=
  ∀ (pre rest : Str) (d : Int) (deep : Bool), lo ≤ d →
    scan (pre ++ s ++ rest) sep pre.length d deep =
      scan (pre ++ s ++ rest) sep (pre.length + s.length) d (deep || decide (ch '(' ∈ s))

theorem walk_nil (sep : Byte) (lo : Int) : Walk sep lo [] := by
  intro pre rest d deep _
  simp

theorem walk_mono {sep : Byte} {lo lo' : Int} {s : Str} (h : Walk sep lo s) (hl : lo ≤ lo') : Walk sep lo' s :=
  fun pre rest d deep hd => h pre rest d deep (by omega)

theorem walk_append {sep : Byte} {lo : Int} {a b : Str} (ha : Walk sep lo a) (hb : Walk sep lo b) : Walk sep lo (a ++ b) := by
  intro pre rest d deep hd
  have h1 := ha pre (b ++ rest) d deep hd
  have h2 := hb (pre ++ a) rest d (deep || decide (ch '(' ∈ a)) hd
  simp only [List.append_assoc, List.length_append, List.mem_append] at h1 h2 ⊢
  rw [h1, h2]
  congr 1
  · omega
  · rw [Bool.or_assoc, Bool.decide_or]

theorem scan_step (pre rest : Str) (sep c : Byte) (d : Int) (deep : Bool) :
    scan (pre ++ c :: rest) sep pre.length d deep =
      if c = ch '(' then scan (pre ++ c :: rest) sep (pre.length + 1) (d + 1) true
      else if c = ch ')' then scan (pre ++ c :: rest) sep (pre.length + 1) (d - 1) deep
      else if c = sep ∧ d = 0 then (deep, pre.length, false)
      else scan (pre ++ c :: rest) sep (pre.length + 1) d deep := by
  conv => lhs; rw [scan]
  rw [dif_pos (by simp)]
  have : (pre ++ c :: rest)[pre.length]'(by simp) = c := by simp
  simp only [this]

theorem walk_byte {sep c : Byte} {lo : Int} (h1 : c ≠ ch '(') (h2 : c ≠ ch ')') (h3 : c ≠ sep ∨ 1 ≤ lo) : Walk sep lo [c] := by
  intro pre rest d deep hd
  have := scan_step pre rest sep c d deep
  simp only [List.append_assoc, List.singleton_append, List.length_singleton] at this ⊢
  rw [this, if_neg h1, if_neg h2, if_neg (by rintro ⟨a, b⟩; rcases h3 with h3 | h3; exact h3 a; omega)]
  congr 1
  simp only [List.mem_singleton]
  rw [decide_eq_false (fun e => h1 e.symm), Bool.or_false]

theorem walk_bytes {sep : Byte} {lo : Int} {s : Str} (h : ∀ c ∈ s, c ≠ ch '(' ∧ c ≠ ch ')' ∧ (c ≠ sep ∨ 1 ≤ lo)) : Walk sep lo s := by
  induction s with
  | nil => exact walk_nil _ _
  | cons c s ih =>
    have hc := h c (List.mem_cons_self ..)
    exact walk_append (a := [c]) (walk_byte hc.1 hc.2.1 hc.2.2) (ih fun x hx => h x (List.mem_cons_of_mem _ hx))

theorem walk_paren {sep : Byte} {s : Str} (h : Walk sep 1 s) : Walk sep 0 (str "(" ++ s ++ str ")") := by
  intro pre rest d deep hd
  have e1 : str "(" = [ch '('] := rfl
  have e2 : str ")" = [ch ')'] := rfl
  rw [e1, e2]
  have h1 := scan_step pre (s ++ ([ch ')'] ++ rest)) sep (ch '(') d deep
  rw [if_pos rfl] at h1
  have h2 := h (pre ++ [ch '(']) ([ch ')'] ++ rest) (d + 1) true (by omega)
  have h3 := scan_step (pre ++ [ch '('] ++ s) rest sep (ch ')') (d + 1) (true || decide (ch '(' ∈ s))
  rw [if_neg (by decide), if_pos rfl] at h3
  simp only [List.append_assoc, List.cons_append, List.nil_append, List.length_append, List.length_cons,
    List.length_nil] at h1 h2 h3 ⊢
  rw [h1, h2]
  have e3 : pre.length + (0 + 1) + s.length = pre.length + (s.length + (0 + 1)) := by omega
  rw [e3, h3]
  congr 1
  · omega
  · simp

/-- stops at the separator -/
theorem scan_stop {sep : Byte} {s : Str} (h : Walk sep 0 s) (hs : sep ≠ ch '(' ∧ sep ≠ ch ')') (pre rest : Str) :
    scan (pre ++ s ++ [sep] ++ rest) sep pre.length = (decide (ch '(' ∈ s), pre.length + s.length, false) := by
  have h1 := h pre ([sep] ++ rest) 0 false (by omega)
  have h2 := scan_step (pre ++ s) rest sep sep 0 (decide (ch '(' ∈ s))
  rw [if_neg hs.1, if_neg hs.2, if_pos ⟨rfl, rfl⟩] at h2
  simp only [List.append_assoc, List.singleton_append, List.length_append, Bool.false_or] at h1 h2 ⊢
  rw [h1, h2]

/-- runs into the end -/
theorem scan_end {sep : Byte} {s : Str} (h : Walk sep 0 s) (pre : Str) :
    scan (pre ++ s) sep pre.length = (decide (ch '(' ∈ s), pre.length + s.length, true) := by
  have h1 := h pre [] 0 false (by omega)
  simp only [List.append_nil, Bool.false_or] at h1
  rw [h1, scan, dif_neg (by rw [List.length_append]; omega)]

theorem slice_mid (pre s rest : Str) : slice (pre ++ s ++ rest) pre.length (pre.length + s.length) = .ok s := by
  unfold slice
  rw [if_pos ⟨by omega, by simp⟩]
  rw [← List.length_append, List.take_left, List.drop_left]

theorem slice_tail (pre s : Str) : slice (pre ++ s) pre.length (pre.length + s.length) = .ok s := by
  have := slice_mid pre s []
  simpa using this

/-! ### the pieces of a name -/

theorem enc_bytes (v : BitVec 32) : enc v ≠ [] ∧ ∀ b ∈ enc v, b ≠ ch '(' ∧ b ≠ ch ')' ∧ b ≠ ch ':' ∧ b ≠ ch '|' ∧ b ≠ ch '[' := by
  obtain ⟨hi, c, e, h1, h2⟩ := varint_alphabet v
  rw [e]
  refine ⟨by simp, ?_⟩
  have hv : (ch '(').toNat = 40 ∧ (ch ')').toNat = 41 ∧ (ch ':').toNat = 58 ∧ (ch '|').toNat = 124 ∧ (ch '[').toNat = 91 := by decide
  intro b hb
  have key : b.toNat ≠ 40 ∧ b.toNat ≠ 41 ∧ b.toNat ≠ 58 ∧ b.toNat ≠ 124 ∧ b.toNat ≠ 91 := by
    rw [List.mem_append, List.mem_singleton] at hb
    rcases hb with hb | rfl
    · have := h1 b hb; omega
    · omega
  refine ⟨?_, ?_, ?_, ?_, ?_⟩ <;> rintro rfl <;> omega

theorem walk_enc (v : BitVec 32) {sep : Byte} (hs : sep = ch ':' ∨ sep = ch '|') : Walk sep 0 (enc v) := by
  apply walk_bytes
  intro c hc
  have := (enc_bytes v).2 c hc
  refine ⟨this.1, this.2.1, Or.inl ?_⟩
  rcases hs with rfl | rfl
  · exact this.2.2.1
  · exact this.2.2.2.1

theorem paren_enc (v : BitVec 32) : ch '(' ∉ enc v := fun h => ((enc_bytes v).2 _ h).1 rfl

theorem walk_plain {s : Str} (h : Plain s) {sep : Byte} (hs : sep = ch ':' ∨ sep = ch '|') : Walk sep 0 s := by
  apply walk_bytes
  intro c hc
  have := h.2.2 c hc
  refine ⟨this.1, this.2.1, Or.inl ?_⟩
  rcases hs with rfl | rfl
  · exact this.2.2.1
  · exact this.2.2.2

theorem str_one (c : Char) : str (String.singleton c) = [ch c] := by
  simp [str]

mutual
theorem walk_ty (t : Ty) (h : t.Ok) {sep : Byte} (hs : sep = ch ':' ∨ sep = ch '|') : Walk sep 0 t.render := by
  cases t with
  | name s => exact walk_plain h hs
  | arr q t =>
    simp only [Ty.render]
    have hb : ∀ c, c = ch '[' ∨ c = ch ']' → Walk sep 0 [c] := by
      intro c hc
      apply walk_byte
      · rcases hc with rfl | rfl <;> decide
      · rcases hc with rfl | rfl <;> decide
      · left; rcases hc with rfl | rfl <;> rcases hs with rfl | rfl <;> decide
    exact walk_append (walk_append (hb _ (Or.inl rfl)) (walk_append (walk_enc q hs) (walk_ty t h hs))) (hb _ (Or.inr rfl))
  | gen b ls =>
    simp only [Ty.render]
    rw [List.append_assoc, List.append_assoc]
    refine walk_append (walk_plain h.1 hs) ?_
    rw [← List.append_assoc]
    exact walk_paren (walk_labels ls h.2 hs)
theorem walk_args (a : Args) (h : a.Ok) {sep : Byte} (hs : sep = ch ':' ∨ sep = ch '|') : Walk sep 1 a.render := by
  cases a with
  | one q t => exact walk_mono (walk_append (walk_enc q hs) (walk_ty t h hs)) (by omega)
  | cons q t rest =>
    simp only [Args.render]
    refine walk_append (walk_append (walk_mono (walk_append (walk_enc q hs) (walk_ty t h.1 hs)) (by omega)) ?_) (walk_args rest h.2 hs)
    exact walk_byte (by decide) (by decide) (Or.inr (by omega))
theorem walk_labels (ls : Labels) (h : ls.Ok) {sep : Byte} (hs : sep = ch ':' ∨ sep = ch '|') : Walk sep 1 ls.render := by
  have hT : ∀ t, Walk sep 1 (encT t) := fun t => walk_mono (walk_append (walk_enc _ hs) (walk_enc _ hs)) (by omega)
  cases ls with
  | last t a => exact walk_append (hT t) (walk_args a h.2 hs)
  | more t a rest =>
    simp only [Labels.render]
    refine walk_append (walk_append (walk_append (hT t) (walk_args a h.2.1 hs)) ?_) (walk_labels rest h.2.2 hs)
    exact walk_byte (by decide) (by decide) (Or.inr (by omega))
end

/-- the arguments of a label contain no `|` at the top level -/
theorem walk_args_bar (a : Args) (h : a.Ok) : Walk (ch '|') 0 a.render := by
  induction a using Args.rec (motive_1 := fun _ => True) (motive_3 := fun _ => True) with
  | name => trivial
  | arr => trivial
  | gen => trivial
  | one q t => exact walk_append (walk_enc q (Or.inr rfl)) (walk_ty t h (Or.inr rfl))
  | cons q t rest _ ih =>
    simp only [Args.render]
    exact walk_append (walk_append (walk_append (walk_enc q (Or.inr rfl)) (walk_ty t h.1 (Or.inr rfl)))
      (walk_byte (by decide) (by decide) (Or.inl (by decide)))) (ih h.2)
  | _ => trivial

theorem paren_plain {s : Str} (h : Plain s) : ch '(' ∉ s := fun hm => (h.2.2 _ hm).1 rfl

theorem deep_ty (t : Ty) (h : t.Ok) : decide (ch '(' ∈ t.render) = t.deep := by
  induction t using Ty.rec (motive_2 := fun _ => True) (motive_3 := fun _ => True) with
  | name s => simp only [Ty.render, Ty.deep]; exact decide_eq_false (paren_plain h)
  | arr q t ih =>
    simp only [Ty.render, Ty.deep]
    rw [← ih h]
    congr 1
    simp only [List.mem_append, eq_iff_iff]
    constructor
    · rintro ((h | h | h) | h)
      · exact absurd h (by decide)
      · exact absurd h (paren_enc q)
      · exact h
      · exact absurd h (by decide)
    · exact fun h => Or.inl (Or.inr (Or.inr h))
  | gen b ls =>
    simp only [Ty.render, Ty.deep]
    apply decide_eq_true
    simp [str]
  | _ => trivial

theorem deep_args (a : Args) (h : a.Ok) : decide (ch '(' ∈ a.render) = a.deep := by
  induction a using Args.rec (motive_1 := fun _ => True) (motive_3 := fun _ => True) with
  | one q t =>
    simp only [Args.render, Args.deep, ← deep_ty t h, List.mem_append, paren_enc q, false_or]
  | cons q t rest _ ih =>
    simp only [Args.render, Args.deep, ← deep_ty t h.1, ← ih h.2, List.mem_append, paren_enc q, false_or]
    have : ch '(' ∉ str ":" := by decide
    simp only [this, or_false, Bool.decide_or]
  | _ => trivial

end Verif.Canon
