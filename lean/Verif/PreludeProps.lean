import Verif.PreludeFind
/-!
# `split`, `join`, `replace` (C11, C12), comparison (C13), list functions (C44)
-/
namespace Verif.Prelude
open Verif

variable {α : Type}

/-! ## C11, C12 -/

/-- Specification: the pieces glued together with `sep` in between. -/
def glue (sep : List α) : List (List α) → List α
  | [] => []
  | [p] => p
  | p :: q :: ps => p ++ sep ++ glue sep (q :: ps)

/-- Specification: cutting at the leftmost occurrences of `sep`.  Every piece but the last is followed by `sep`, and
`sep` does not occur earlier in the piece with that `sep`; `sep` does not occur in the last piece. -/
def Cut (sep : List α) : List (List α) → Prop
  | [] => False
  | [p] => ∀ k, ¬ Occurs p sep k
  | p :: q :: ps => (∀ k < p.length, ¬ Occurs (p ++ sep) sep k) ∧ Cut sep (q :: ps)

/-- The items of a separator. -/
def Sep.items : Sep α → List α
  | .one c => [c]
  | .many l => l
  | .nothing => []

theorem items_len (n : Needle α) : n.items.length = n.len := by cases n <;> rfl

theorem sep_len (n : Sep α) : n.items.length = n.len := by cases n <;> rfl

theorem window_ok (l : List α) (a b : Nat) (h1 : a ≤ b) (h2 : b ≤ l.length) : window l a b = some ((l.take b).drop a) := by
  simp [window, h1, h2]

section
variable [DecidableEq α]

theorem splitFrom_spec (s : List α) (sep : Needle α) (hsep : sep.len ≠ 0) (last : Nat) (hl : last ≤ s.length) :
    ∃ calls, splitFrom s sep last = some calls ∧ calls ≠ [] ∧
      glue sep.items (calls.map (·.1)) = s.drop last ∧ Cut sep.items (calls.map (·.1)) ∧
      (∃ c cs, calls = c :: cs ∧ c.2.1 = decide (last = 0) ∧ (∀ x ∈ cs, x.2.1 = false) ∧
        (c.2.2 = true ↔ cs = [])) := by
  induction hn : s.length - last using Nat.strongRecOn generalizing last with
  | _ d ih =>
    unfold splitFrom
    rw [dif_neg hsep]
    obtain ⟨r, e, hr⟩ := find_window s sep last s.length hl (Nat.le_refl _)
    rw [e]
    simp only
    rcases hr with ⟨rfl, hno⟩ | ⟨k, rfl, ho, hno⟩
    · rw [if_neg (by omega)]
      have hno' : ∀ k, ¬ Occurs (s.drop last) sep.items k := by
        intro k ho
        apply hno (last + k)
        rw [occurs_iff] at ho
        rw [List.length_drop] at ho
        refine ⟨(occurs_iff _ _ _).2 ⟨by omega, fun j hj => ?_⟩, by omega, by omega⟩
        rw [← ho.2 j hj, List.getElem?_drop, Nat.add_assoc]
      by_cases h0 : last = 0
      · subst h0
        rw [if_neg (by simp)]
        exact ⟨_, rfl, by simp, by simp [glue], by simpa [Cut] using hno', _, [], rfl, by simp⟩
      · rw [if_pos h0, window_ok s last s.length hl (Nat.le_refl _)]
        exact ⟨_, rfl, by simp, by simp [glue], by simpa [Cut] using hno', _, [], rfl, by simp [h0]⟩
    · have hk1 := ho.2.1
      have hk2 := ho.2.2
      rw [items_len] at hk2
      rw [if_pos (by omega), dif_neg (by simp; omega), Int.toNat_natCast, window_ok s last k (by omega) (by omega)]
      obtain ⟨calls, ec, hne, hg, hcut, c, cs, hcs, hfirst, hrest, hlast⟩ := ih (s.length - (k + sep.len)) (by omega) (k + sep.len) (by omega) rfl
      rw [ec]
      subst hcs
      refine ⟨_, rfl, by simp, ?_, ?_, _, c :: cs, rfl, rfl, ?_, by simp⟩
      · -- glue
        simp only [List.map_cons, glue] at hg ⊢
        rw [hg]
        have hocc := (occurs_iff _ _ _).1 ho.1
        have hmid : sep.items = (s.drop k).take sep.len := by
          apply List.ext_getElem?
          intro j
          by_cases hj : j < sep.len
          · rw [List.getElem?_take_of_lt hj, List.getElem?_drop, hocc.2 j (by rw [items_len]; exact hj)]
          · rw [List.getElem?_eq_none (by rw [items_len]; omega), List.getElem?_eq_none (by rw [List.length_take]; omega)]
        rw [hmid, List.append_assoc, show s.drop (k + sep.len) = (s.drop k).drop sep.len by rw [List.drop_drop],
          List.take_append_drop]
        have : s.drop last = (s.take k).drop last ++ (s.drop k) := by
          conv => lhs; rw [← List.take_append_drop k s]
          rw [List.drop_append_of_le_length (by rw [List.length_take]; omega)]
        rw [this]
      · -- cut
        simp only [List.map_cons, Cut] at hcut ⊢
        refine ⟨fun j hj hoj => ?_, hcut⟩
        have hplen : ((s.take k).drop last).length = k - last := by rw [List.length_drop, List.length_take]; omega
        rw [hplen] at hj
        apply hno (last + j) (by omega)
        have hocc := (occurs_iff _ _ _).1 ho.1
        have hoj' := (occurs_iff _ _ _).1 hoj
        rw [List.length_append, hplen, items_len] at hoj'
        refine ⟨(occurs_iff _ _ _).2 ⟨by rw [items_len]; omega, fun i hi => ?_⟩, by omega, by rw [items_len]; omega⟩
        rw [← hoj'.2 i (by rw [← items_len]; exact hi)]
        by_cases hij : j + i < k - last
        · rw [List.getElem?_append_left (by omega), List.getElem?_drop, List.getElem?_take_of_lt (by omega),
            Nat.add_assoc]
        · rw [items_len] at hi
          rw [List.getElem?_append_right (by omega), hplen, ← hocc.2 _ (by rw [items_len]; omega)]
          congr 1; omega
      · intro x hx
        rcases List.mem_cons.1 hx with rfl | hx
        · rw [hfirst]; simp; omega
        · exact hrest x hx

omit [DecidableEq α] in
theorem foldl_snoc {β : Type} (f : β → α) (l : List β) (acc : List α) :
    l.foldl (fun r c => r ++ [f c]) acc = acc ++ l.map f := by
  induction l generalizing acc with
  | nil => simp
  | cons x xs ih => simp [ih]

/-- `split` with an empty separator gives the string as the only piece. -/
theorem split_empty_sep (s : List α) (sep : Needle α) (h : sep.items = []) : split s sep = some [s] := by
  have h0 : sep.len = 0 := by rw [← items_len, h]; rfl
  unfold split splitEach splitFrom
  rw [dif_pos h0]; rfl

/-- **C11.** `split` by a non-empty separator never faults; gluing its pieces with the separator gives the string back;
and the pieces are those of cutting at the leftmost occurrences. -/
theorem split_cuts (s : List α) (sep : Needle α) (h : sep.items ≠ []) :
    ∃ ps, split s sep = some ps ∧ glue sep.items ps = s ∧ Cut sep.items ps := by
  have h0 : sep.len ≠ 0 := by rw [← items_len]; simpa using h
  obtain ⟨calls, e, -, hg, hc, -⟩ := splitFrom_spec s sep h0 0 (Nat.zero_le _)
  refine ⟨calls.map (·.1), ?_, by simpa using hg, hc⟩
  simp only [split, splitEach, e, Option.bind_eq_bind, Option.bind_some, foldl_snoc, List.nil_append]

end

theorem occurs_append (p q n : List α) (k : Nat) (h : Occurs p n k) : Occurs (p ++ q) n k := by
  obtain ⟨a, b, rfl, hk⟩ := h
  exact ⟨a, b ++ q, by simp, hk⟩

theorem cut_free (sep : List α) (hs : sep ≠ []) (ps : List (List α)) (h : Cut sep ps) : ∀ p ∈ ps, ∀ k, ¬ Occurs p sep k := by
  induction ps with
  | nil => intro p hp; cases hp
  | cons p ps ih =>
    cases ps with
    | nil =>
      intro q hq
      have : q = p := by simpa using hq
      subst this; exact h
    | cons q qs =>
      intro r hr k ho
      rcases List.mem_cons.1 hr with rfl | hr
      · have hl := ((occurs_iff _ _ _).1 ho).1
        have : 0 < sep.length := List.length_pos_iff.2 hs
        exact h.1 k (by omega) (occurs_append _ _ _ _ ho)
      · exact ih h.2 r hr k ho

/-- The specification `Cut` leaves no choice: two ways to cut the same string are the same. -/
theorem cut_unique (sep : List α) (hs : sep ≠ []) (ps qs : List (List α)) (hp : Cut sep ps) (hq : Cut sep qs)
    (h : glue sep ps = glue sep qs) : ps = qs := by
  have pos : 0 < sep.length := List.length_pos_iff.2 hs
  -- where the first occurrence of `sep` is in a glued list
  have first : ∀ p q r, Cut sep (p :: q :: r) → ∀ k < p.length, ¬ Occurs (glue sep (p :: q :: r)) sep k := by
    intro p q r hc k hk ho
    apply hc.1 k hk
    have ho := (occurs_iff _ _ _).1 ho
    refine (occurs_iff _ _ _).2 ⟨by simp; omega, fun j hj => ?_⟩
    rw [← ho.2 j hj]
    show _ = ((p ++ sep) ++ glue sep (q :: r))[k + j]?
    exact (List.getElem?_append_left (by rw [List.length_append]; omega)).symm
  have at_ : ∀ p q r, Occurs (glue sep (p :: q :: r)) sep p.length := fun p q r => ⟨p, glue sep (q :: r), rfl, rfl⟩
  induction ps generalizing qs with
  | nil => cases hp
  | cons p ps ih =>
    cases qs with
    | nil => cases hq
    | cons q qs =>
      cases ps with
      | nil =>
        cases qs with
        | nil => simp only [glue] at h; rw [h]
        | cons q' qs => exact absurd (h ▸ at_ q q' qs) (hp _)
      | cons p' ps =>
        cases qs with
        | nil => exact absurd (h ▸ at_ p p' ps) (hq _)
        | cons q' qs =>
          have e1 : p.length = q.length := by
            have a : ¬ p.length < q.length := fun hlt => first q q' qs hq _ hlt (h ▸ at_ p p' ps)
            have b : ¬ q.length < p.length := fun hlt => first p p' ps hp _ hlt (h ▸ at_ q q' qs)
            omega
          have h' : p ++ (sep ++ glue sep (p' :: ps)) = q ++ (sep ++ glue sep (q' :: qs)) := by
            simpa only [glue, List.append_assoc] using h
          obtain ⟨e2, e3⟩ := List.append_inj h' e1
          obtain ⟨-, e4⟩ := List.append_inj e3 rfl
          rw [e2, ih (q' :: qs) hp.2 hq.2 e4]

section
variable [DecidableEq α]

/-- **C11.** No piece of `split` contains the separator. -/
theorem split_pieces_free (s : List α) (sep : Needle α) (h : sep.items ≠ []) (ps : List (List α))
    (e : split s sep = some ps) : ∀ p ∈ ps, ∀ k, ¬ Occurs p sep.items k := by
  obtain ⟨ps', e', -, hc⟩ := split_cuts s sep h
  rw [e] at e'; cases e'
  exact cut_free _ h _ hc

end

theorem blit_eq (res : List α) (pos : Nat) (xs : List α) (h : pos + xs.length ≤ res.length) :
    blit res pos xs = some (res.take pos ++ xs ++ res.drop (pos + xs.length)) := by simp [blit, h]

theorem putSep_eq (res : List α) (pos : Nat) (sep : Sep α) (h : pos + sep.len ≤ res.length) :
    putSep res pos sep = some (res.take pos ++ sep.items ++ res.drop (pos + sep.len)) := by
  cases sep with
  | one c => exact blit_eq res pos [c] h
  | many l => exact blit_eq res pos l h
  | nothing => simp [putSep, Sep.items, Sep.len]

theorem glue_snoc (sep : List α) (ps : List (List α)) (q : List α) (h : ps ≠ []) :
    glue sep (ps ++ [q]) = glue sep ps ++ sep ++ q := by
  induction ps with
  | nil => exact absurd rfl h
  | cons p ps ih =>
    cases ps with
    | nil => simp [glue]
    | cons p' ps =>
      have := ih (by simp)
      simp only [List.cons_append, glue] at this ⊢
      rw [this]; simp

theorem glue_mono (sep : List α) (ps : List (List α)) (i : Nat) (hi : 0 < i) (h : i < ps.length) :
    glue sep (ps.take (i + 1)) = glue sep (ps.take i) ++ sep ++ ps[i] := by
  rw [List.take_succ_eq_append_getElem h]
  exact glue_snoc _ _ _ (by
    intro h0
    have := congrArg List.length h0
    rw [List.length_take] at this
    simp at this
    rcases this with h1 | h1
    · omega
    · rw [h1] at h; simp at h)

/-- **C11.** `join` is gluing with the separator, whatever was in the uninitialised memory; it never writes out of
bounds. -/
theorem join_glues (junk : Nat → List α) (hj : ∀ n, (junk n).length = n) (a : List (List α)) (sep : Sep α) :
    join junk a sep = some (glue sep.items a) := by
  unfold join
  by_cases hlen : a.length < 2
  · rw [if_pos hlen]
    match a, hlen with
    | [], _ => rfl
    | [p], _ => rfl
  · rw [if_neg hlen]
    have h0 : a[0]? = some a[0] := List.getElem?_eq_getElem (by omega)
    have g1 : glue sep.items (a.take 1) = a[0] := by
      rw [List.take_succ_eq_append_getElem (by omega)]; simp [glue]
    -- the size
    have hsize : ∃ n, joinSize a sep.len a[0].length = some n ∧ n = (glue sep.items (a.take a.length)).length := by
      refine forUp_inv (fun i n => n = (glue sep.items (a.take i)).length) (by omega) (by rw [g1]) ?_
      intro k n hk hk' hP
      refine ⟨n + (sep.len + a[k].length), by simp [List.getElem?_eq_getElem hk'], ?_⟩
      rw [glue_mono _ _ _ (by omega) hk', List.length_append, List.length_append, sep_len, ← hP]; omega
    obtain ⟨n, en, hn⟩ := hsize
    rw [List.take_length] at hn
    -- prefixes are no longer than the whole
    have hpre : ∀ i, 0 < i → i ≤ a.length → (glue sep.items (a.take i)).length ≤ n := by
      intro i h1 h2
      induction hd : a.length - i generalizing i with
      | zero =>
        have : i = a.length := by omega
        subst this; rw [List.take_length]; omega
      | succ d ih =>
        have := ih (i + 1) (by omega) (by omega) (by omega)
        rw [glue_mono _ _ _ h1 (by omega)] at this
        rw [List.length_append, List.length_append] at this
        omega
    rw [h0]
    simp only [Option.bind_eq_bind, Option.bind_some, en]
    have hb := blit_eq (junk n) 0 a[0] (by rw [hj]; have := hpre 1 (by omega) (by omega); rw [g1] at this; omega)
    rw [hb]
    simp only [Option.bind_some]
    have hloop : ∃ s', forUp 1 a.length ((junk n).take 0 ++ a[0] ++ (junk n).drop (0 + a[0].length), a[0].length)
        (joinStep a sep) = some s' ∧ (s'.1.length = n ∧ s'.2 = (glue sep.items (a.take a.length)).length ∧
          s'.1.take s'.2 = glue sep.items (a.take a.length)) := by
      refine forUp_inv (fun i (s' : List α × Nat) => s'.1.length = n ∧ s'.2 = (glue sep.items (a.take i)).length ∧
          s'.1.take s'.2 = glue sep.items (a.take i)) (by omega) ?_ ?_
      · have h1 := hpre 1 (by omega) (by omega)
        rw [g1] at h1 ⊢
        refine ⟨by simp [hj]; omega, rfl, by simp⟩
      · rintro k ⟨res, size⟩ hk hk' ⟨h1, h2, h3⟩
        simp only at h1 h2 h3
        have hm := hpre (k + 1) (by omega) (by omega)
        have hgm := glue_mono sep.items a k (by omega) hk'
        rw [hgm, List.length_append, List.length_append, sep_len, ← h2] at hm
        unfold joinStep
        simp only [List.getElem?_eq_getElem hk', Option.bind_eq_bind, Option.bind_some]
        rw [putSep_eq res size sep (by omega)]
        simp only [Option.bind_some]
        have hr1 : (res.take size ++ sep.items ++ res.drop (size + sep.len)).length = n := by
          simp only [List.length_append, List.length_take, List.length_drop, sep_len]; omega
        rw [blit_eq _ _ _ (by rw [hr1]; omega)]
        simp only [Option.bind_some]
        have htk : (res.take size ++ sep.items ++ res.drop (size + sep.len)).take (size + sep.len) = res.take size ++ sep.items := by
          rw [List.take_append_of_le_length (by simp [sep_len]; omega)]
          rw [List.take_of_length_le (by simp [sep_len]; omega)]
        refine ⟨_, rfl, ?_, ?_, ?_⟩
        · simp only [List.length_append, List.length_drop, hr1, htk, List.length_take, sep_len]
          omega
        · rw [hgm]; simp only [List.length_append, sep_len]; omega
        · simp only [htk]
          rw [hgm, ← h3, List.take_append_of_le_length (by simp [sep_len]; omega)]
          rw [List.take_of_length_le (by simp [sep_len]; omega)]
    obtain ⟨⟨res, size⟩, e, h1, h2, h3⟩ := hloop
    rw [e]
    simp only [Option.bind_some]
    simp only at h1 h2 h3
    rw [List.take_length] at h2 h3
    rw [List.take_of_length_le (by omega)] at h3
    rw [h3]

section
variable [DecidableEq α]

/-- **C11.** `join` inverts `split`. -/
theorem join_split (junk : Nat → List α) (hj : ∀ n, (junk n).length = n) (s sep : List α) :
    (split s (.many sep)).bind (fun ps => join junk ps (.many sep)) = some s := by
  by_cases h : sep = []
  · rw [split_empty_sep s (.many sep) h]
    simp [join_glues junk hj, glue]
  · obtain ⟨ps, e, hg, -⟩ := split_cuts s (.many sep) h
    rw [e]
    simpa [join_glues junk hj, Sep.items, Needle.items] using hg

/-- **C11, for a single separator item.** -/
theorem join_split_item (junk : Nat → List α) (hj : ∀ n, (junk n).length = n) (s : List α) (c : α) :
    (split s (.one c)).bind (fun ps => join junk ps (.one c)) = some s := by
  obtain ⟨ps, e, hg, -⟩ := split_cuts s (.one c) (by simp [Needle.items])
  rw [e]
  simpa [join_glues junk hj, Sep.items, Needle.items] using hg

theorem replaceFold_rest (s w : List α) (acc : List α) (cs : List (List α × Bool × Bool)) (h : ∀ x ∈ cs, x.2.1 = false) :
    replaceFold s w acc cs = acc ++ (cs.map fun c => w ++ c.1).flatten := by
  induction cs generalizing acc with
  | nil => simp [replaceFold]
  | cons c cs ih =>
    obtain ⟨sub, first, last⟩ := c
    have hf : first = false := h (sub, first, last) (by simp)
    subst hf
    simp only [replaceFold, Bool.not_false, if_true]
    rw [ih _ (fun x hx => h x (by simp [hx]))]
    simp

theorem glue_cons (w : List α) (p : List α) (ps : List (List α)) : glue w (p :: ps) = p ++ (ps.map fun q => w ++ q).flatten := by
  induction ps generalizing p with
  | nil => simp [glue]
  | cons q qs ih => simp [glue, ih q]

/-- **C12.** `replace` equals `split` then `join`. -/
theorem replace_eq (junk : Nat → List α) (hj : ∀ n, (junk n).length = n) (s : List α) (pat w : Needle α) :
    ∃ r, replace s pat w = some r ∧
      (split s pat).bind (fun ps => join junk ps (.many w.items)) = some r := by
  by_cases h : pat.items = []
  · refine ⟨s, ?_, ?_⟩
    · have h0 : pat.len = 0 := by rw [← items_len, h]; rfl
      unfold replace splitEach splitFrom
      rw [dif_pos h0]; rfl
    · rw [split_empty_sep s pat h]; simp [join_glues junk hj, glue]
  · have h0 : pat.len ≠ 0 := by rw [← items_len]; simpa using h
    obtain ⟨calls, e, -, hg, hc, c, cs, hcs, hfirst, hrest, hlast⟩ := splitFrom_spec s pat h0 0 (Nat.zero_le _)
    refine ⟨glue w.items (calls.map (·.1)), ?_, ?_⟩
    · unfold replace splitEach
      rw [e]
      simp only [Option.bind_eq_bind, Option.bind_some]
      congr 1
      subst hcs
      obtain ⟨sub, first, last⟩ := c
      have : first = true := by simpa using hfirst
      subst this
      simp only [replaceFold, Bool.not_true, Bool.false_eq_true, if_false]
      by_cases hl : last = true
      · have : cs = [] := hlast.1 hl
        subst this
        rw [if_pos hl]
        simp [glue] at hg ⊢
        exact hg.symm
      · rw [if_neg hl, replaceFold_rest _ _ _ _ hrest]
        simp [glue_cons, List.map_map, Function.comp_def]
    · unfold split splitEach
      rw [e]
      simp only [Option.bind_eq_bind, Option.bind_some, foldl_snoc, List.nil_append, join_glues junk hj, Sep.items]

end

example : split [1, 0, 2, 3, 0] (.one 0) = some [[1], [2, 3], []] := by decide +kernel
example : split [1, 1, 1] (.many [1, 1]) = some [[], [1]] := by decide +kernel
example : replace [1, 0, 2, 0] (.one 0) (.many [7, 7]) = some [1, 7, 7, 2, 7, 7] := by decide +kernel
example : Cut [0] [[1], [2, 3]] := by
  obtain ⟨ps, e, -, hc⟩ := split_cuts [1, 0, 2, 3] (.one 0) (by simp [Needle.items])
  have : split [1, 0, 2, 3] (.one 0) = some [[1], [2, 3]] := by decide +kernel
  rw [this] at e; cases e; exact hc

end Verif.Prelude
