import Verif.PathWalk
/-!
# Paths (C22): `relative`, `join`, `dirname`, `filename`, `ext`, `noext`
-/
namespace Verif.Path
open Verif Verif.Prelude

/-! ## The last slash, the last dot -/

theorem take_of_none {c : Byte} {path : Str} {n i : Nat} (hn : i < n) (hi : path[i]? = some c) :
    path.take n = path.take i ++ c :: (path.take n).drop (i + 1) := by
  have hl := (List.getElem?_eq_some_iff.1 hi).1
  have e := (List.getElem?_eq_some_iff.1 hi).2
  conv => lhs; rw [← List.take_append_drop i (path.take n)]
  rw [List.take_take, Nat.min_eq_left (by omega), List.drop_eq_getElem_cons (by rw [List.length_take]; omega)]
  simp [e]

/-- `lastSlash path n` looks at the first `n` bytes and finds the last slash. -/
theorem lastSlash_spec (path : Str) (n : Nat) (h : n ≤ path.length) :
    (lastSlash path n = some none ∧ slash ∉ path.take n) ∨
    ∃ i, lastSlash path n = some (some i) ∧ i < n ∧ path[i]? = some slash ∧ slash ∉ (path.take n).drop (i + 1) := by
  induction n with
  | zero => left; exact ⟨rfl, by simp⟩
  | succ n ih =>
    have hn : n < path.length := by omega
    have et : path.take (n + 1) = path.take n ++ [path[n]] := List.take_succ_eq_append_getElem hn
    rw [lastSlash, List.getElem?_eq_getElem hn]
    simp only [Option.bind_eq_bind, Option.bind_some]
    split_ifs with hc
    · right
      refine ⟨n, rfl, by omega, by rw [List.getElem?_eq_getElem hn, hc], ?_⟩
      rw [List.drop_eq_nil_of_le (by rw [List.length_take]; omega)]; simp
    · rcases ih (by omega) with ⟨h1, h2⟩ | ⟨i, h1, h2, h3, h4⟩
      · left
        refine ⟨h1, ?_⟩
        rw [et]
        simp only [List.mem_append, List.mem_singleton, not_or]
        exact ⟨h2, fun h => hc h.symm⟩
      · right
        refine ⟨i, h1, by omega, h3, ?_⟩
        rw [et, List.drop_append_of_le_length (by rw [List.length_take]; omega)]
        simp only [List.mem_append, List.mem_singleton, not_or]
        exact ⟨h4, fun h => hc h.symm⟩

/-- **C22.** `filename` is the last component. -/
theorem C22_filename (p : Str) : filename p = (comps p).getLast? := by
  unfold filename
  rcases lastSlash_spec p p.length (Nat.le_refl _) with ⟨h1, h2⟩ | ⟨i, h1, h2, h3, h4⟩
  · rw [h1]
    rw [List.take_length] at h2
    simp only [Option.bind_eq_bind, Option.bind_some]
    rw [comps_free h2]; rfl
  · rw [h1]
    simp only [Option.bind_eq_bind, Option.bind_some]
    rw [List.take_length] at h4
    have e := take_of_none h2 h3
    rw [List.take_length] at e
    conv => rhs; rw [e]
    rw [comps_append_slash, comps_free h4]; simp

/-- **C22.** A path that does not end in a slash is its `dirname` followed by its `filename`; the `dirname` is empty or
ends in a slash. -/
theorem C22_dirname_filename (p : Str) (h : p.getLast? ≠ some slash) :
    ∃ d f, dirname p = some d ∧ filename p = some f ∧ p = d ++ f ∧ slash ∉ f ∧ (d = [] ∨ d.getLast? = some slash) := by
  by_cases hp : p = []
  · subst hp; exact ⟨[], [], rfl, rfl, rfl, by simp, Or.inl rfl⟩
  have hl : 0 < p.length := List.length_pos_iff.2 hp
  have hlast : p[p.length - 1]? ≠ some slash := by rw [← List.getLast?_eq_getElem?]; exact h
  have e0 : lastSlash p p.length = lastSlash p (p.length - 1) := by
    obtain ⟨n, hn⟩ : ∃ n, p.length = n + 1 := ⟨p.length - 1, by omega⟩
    rw [hn] at hlast ⊢
    simp only [Nat.add_sub_cancel] at hlast ⊢
    rw [lastSlash, List.getElem?_eq_getElem (by omega)]
    rw [List.getElem?_eq_getElem (by omega)] at hlast
    simp only [Option.bind_eq_bind, Option.bind_some]
    rw [if_neg (fun h => hlast (by rw [h]))]
  unfold dirname filename
  rw [e0]
  have hs := lastSlash_spec p p.length (Nat.le_refl _)
  rw [e0, List.take_length] at hs
  rcases hs with ⟨h1, h2⟩ | ⟨i, h1, h2, h3, h4⟩
  · rw [h1]
    exact ⟨[], p, rfl, rfl, rfl, h2, Or.inl rfl⟩
  · rw [h1]
    refine ⟨p.take (i + 1), p.drop (i + 1), rfl, rfl, (List.take_append_drop _ _).symm, h4, Or.inr ?_⟩
    rw [List.take_succ_eq_append_getElem h2, List.getLast?_append]
    rw [List.getElem?_eq_getElem h2] at h3
    injection h3 with h3
    simp [h3]

/-- `lastDot` finds the last dot of the last component. -/
theorem lastDot_spec (path : Str) (n : Nat) (h : n ≤ path.length) :
    (lastDot path n = some none ∧ ∀ f, (comps (path.take n)).getLast? = some f → ch '.' ∉ f) ∨
    ∃ i, lastDot path n = some (some i) ∧ i < n ∧ path[i]? = some (ch '.') ∧
      slash ∉ (path.take n).drop (i + 1) ∧ ch '.' ∉ (path.take n).drop (i + 1) := by
  induction n with
  | zero => left; refine ⟨rfl, fun f hf => ?_⟩
            have : f = [] := by simpa [comps] using hf.symm
            subst this; simp
  | succ n ih =>
    have hn : n < path.length := by omega
    have et : path.take (n + 1) = path.take n ++ [path[n]] := List.take_succ_eq_append_getElem hn
    rw [lastDot, List.getElem?_eq_getElem hn]
    simp only [Option.bind_eq_bind, Option.bind_some]
    split_ifs with hc hs
    · right
      refine ⟨n, rfl, by omega, by rw [List.getElem?_eq_getElem hn, hc], ?_⟩
      rw [List.drop_eq_nil_of_le (by rw [List.length_take]; omega)]; simp
    · left
      refine ⟨rfl, fun f hf => ?_⟩
      rw [et, hs, comps_append_slash] at hf
      have : f = [] := by simpa [comps] using hf.symm
      subst this; simp
    · rcases ih (by omega) with ⟨h1, h2⟩ | ⟨i, h1, h2, h3, h4, h5⟩
      · left
        refine ⟨h1, fun f hf => ?_⟩
        -- the last component grows by one byte
        have grow : ∀ (s : Str) (c : Byte), c ≠ slash → ∀ f, (comps (s ++ [c])).getLast? = some f →
            ∃ g, (comps s).getLast? = some g ∧ f = g ++ [c] := by
          intro s c hcs
          induction s with
          | nil => intro f hf
                   rw [List.nil_append, comps_free (by simpa using Ne.symm hcs)] at hf
                   exact ⟨[], rfl, by simpa using hf.symm⟩
          | cons a s ihs =>
            intro f hf
            by_cases ha : a = slash
            · subst ha
              simp only [List.cons_append, comps, if_true] at hf ⊢
              rw [List.getLast?_cons_of_ne_nil (comps_ne _)] at hf ⊢
              exact ihs f hf
            · obtain ⟨p, ps, e1, e2⟩ := comps_nonslash ha s
              obtain ⟨p', ps', e3, e4⟩ := comps_nonslash ha (s ++ [c])
              rw [List.cons_append, e4] at hf
              rw [e2]
              rw [e3] at ihs
              rw [e1] at ihs
              have tl : ∀ (s : Str), (comps (s ++ [c])).length = (comps s).length := by
                intro s
                induction s with
                | nil => rw [List.nil_append, comps_free (by simpa using Ne.symm hcs)]; rfl
                | cons b s ihb =>
                  by_cases hb : b = slash
                  · subst hb; simp only [List.cons_append, comps, if_true, List.length_cons, ihb]
                  · obtain ⟨q, qs, e5, e6⟩ := comps_nonslash hb s
                    obtain ⟨q', qs', e7, e8⟩ := comps_nonslash hb (s ++ [c])
                    rw [List.cons_append, e8, e6]
                    rw [e7, e5] at ihb
                    exact ihb
              have hl := tl s
              rw [e1, e3] at hl
              cases ps with
              | nil =>
                cases ps' with
                | cons => simp at hl
                | nil =>
                  obtain ⟨g, hg, hf'⟩ := ihs p' rfl
                  refine ⟨a :: p, rfl, ?_⟩
                  have hg : g = p := by simpa using hg.symm
                  have hf : f = a :: p' := by simpa using hf.symm
                  rw [hf, hf', hg]; rfl
              | cons q qs =>
                cases ps' with
                | nil => simp at hl
                | cons q' qs' =>
                  rw [List.getLast?_cons_of_ne_nil (by simp)] at hf ⊢
                  have := ihs f (by rw [List.getLast?_cons_of_ne_nil (by simp)]; exact hf)
                  rw [List.getLast?_cons_of_ne_nil (by simp)] at this
                  exact this
        rw [et] at hf
        obtain ⟨g, hg, rfl⟩ := grow _ _ hs f hf
        have := h2 g hg
        simp only [List.mem_append, List.mem_singleton, not_or]
        exact ⟨this, fun h => hc h.symm⟩
      · right
        refine ⟨i, h1, by omega, h3, ?_⟩
        rw [et, List.drop_append_of_le_length (by rw [List.length_take]; omega)]
        simp only [List.mem_append, List.mem_singleton, not_or]
        exact ⟨⟨h4, fun h => hs h.symm⟩, ⟨h5, fun h => hc h.symm⟩⟩

/-- **C22 (extensions), as far as it holds.** If the last component contains a dot, `noext` and `ext` cut the path at its
last dot; `ext` is a dot followed by the text without dots or slashes.  Otherwise both are empty - also `noext`, which
a caller would expect dst return the path. -/
theorem C22_ext (p : Str) : ∃ e n, ext p = some e ∧ noext p = some n ∧
    if (∃ f, (comps p).getLast? = some f ∧ ch '.' ∈ f)
    then p = n ++ e ∧ ∃ t, e = ch '.' :: t ∧ slash ∉ t ∧ ch '.' ∉ t
    else e = [] ∧ n = [] := by
  unfold ext noext
  rcases lastDot_spec p p.length (Nat.le_refl _) with ⟨h1, h2⟩ | ⟨i, h1, h2, h3, h4, h5⟩
  · rw [h1]
    refine ⟨[], [], rfl, rfl, ?_⟩
    rw [List.take_length] at h2
    rw [if_neg (by rintro ⟨f, hf, hd⟩; exact h2 f hf hd)]
    exact ⟨rfl, rfl⟩
  · rw [h1]
    refine ⟨p.drop i, p.take i, rfl, rfl, ?_⟩
    rw [List.take_length] at h4 h5
    have e : p.drop i = ch '.' :: p.drop (i + 1) := by
      rw [List.drop_eq_getElem_cons h2]
      rw [List.getElem?_eq_getElem h2] at h3
      injection h3 with h3
      rw [h3]
    have hdot : ∃ f, (comps p).getLast? = some f ∧ ch '.' ∈ f := by
      have hp : p = p.take i ++ (ch '.' :: p.drop (i + 1)) := by rw [← e, List.take_append_drop]
      have hfree : slash ∉ ch '.' :: p.drop (i + 1) := by
        simp only [List.mem_cons, not_or]
        exact ⟨by decide, h4⟩
      -- the tail from the dot on belongs to the last component
      have key : ∀ (s t : Str), slash ∉ t → t ≠ [] → ∀ c ∈ t, ∃ f, (comps (s ++ t)).getLast? = some f ∧ c ∈ f := by
        intro s t ht hne c hc
        induction s with
        | nil => rw [List.nil_append, comps_free ht]; exact ⟨t, rfl, hc⟩
        | cons a s ihs =>
          obtain ⟨f, hf, hcf⟩ := ihs
          by_cases ha : a = slash
          · subst ha
            simp only [List.cons_append, comps, if_true]
            rw [List.getLast?_cons_of_ne_nil (comps_ne _)]
            exact ⟨f, hf, hcf⟩
          · obtain ⟨q, qs, e1, e2⟩ := comps_nonslash ha (s ++ t)
            rw [List.cons_append, e2]
            rw [e1] at hf
            cases qs with
            | nil =>
              have : f = q := by simpa using hf.symm
              subst this
              exact ⟨a :: f, rfl, List.mem_cons_of_mem _ hcf⟩
            | cons q' qs' =>
              rw [List.getLast?_cons_of_ne_nil (by simp)] at hf ⊢
              exact ⟨f, hf, hcf⟩
      rw [hp]
      exact key _ _ hfree (by simp) _ (by simp)
    rw [if_pos hdot]
    exact ⟨(List.take_append_drop _ _).symm, _, e, h4, h5⟩

/-! ## `relative` and `join` -/

theorem sameLen_spec (f t : Str) : ∃ n, sameLen f t = some n ∧ n ≤ f.length ∧ n ≤ t.length ∧ f.take n = t.take n ∧
    (n = 0 ∨ f[n - 1]? = some slash) ∧ (f.head? = some slash → t.head? = some slash → 0 < n) := by
  have hmin : (if f.length < t.length then f.length else t.length) = min f.length t.length := by
    rw [Nat.min_def]; split_ifs <;> omega
  unfold sameLen
  rw [hmin]
  dsimp only
  have step := forBrk_inv (lo := 0) (hi := min f.length t.length) (s := 0) (body := sameStep f t)
    (fun i n => n ≤ i ∧ f.take i = t.take i ∧ (n = 0 ∨ f[n - 1]? = some slash) ∧
      (f.head? = some slash → t.head? = some slash → 0 < i → 0 < n))
    (fun n => n ≤ f.length ∧ n ≤ t.length ∧ f.take n = t.take n ∧
      (n = 0 ∨ f[n - 1]? = some slash) ∧ (f.head? = some slash → t.head? = some slash → 0 < n))
    (by omega) ⟨by omega, by simp, Or.inl rfl, fun _ _ h => absurd h (by omega)⟩ ?_
  · rcases step with ⟨n, e, h1, h2, h3, h4⟩ | ⟨n, e, h⟩
    · rw [e]
      refine ⟨n, rfl, by omega, by omega, ?_, h3, fun a b => h4 a b ?_⟩
      · have := congrArg (List.take n) h2
        rwa [List.take_take, List.take_take, Nat.min_eq_left h1] at this
      · cases f with
        | nil => simp at a
        | cons => cases t with
          | nil => simp at b
          | cons => simp
    · rw [e]
      exact ⟨n, rfl, h⟩
  · intro k n _ hk ⟨h1, h2, h3, h4⟩
    have hf : k < f.length := by omega
    have ht : k < t.length := by omega
    unfold sameStep
    rw [List.getElem?_eq_getElem hf, List.getElem?_eq_getElem ht]
    simp only [Option.bind_eq_bind, Option.bind_some]
    by_cases hne : t[k] = f[k]
    · rw [if_neg (by simpa using hne)]
      left
      refine ⟨_, rfl, by split_ifs <;> omega, ?_, ?_, ?_⟩
      · rw [List.take_succ_eq_append_getElem hf, List.take_succ_eq_append_getElem ht, h2, hne]
      · split_ifs with hs
        · right; rw [Nat.add_sub_cancel, List.getElem?_eq_getElem hf, ← hne, hs]
        · exact h3
      · intro a b _
        split_ifs with hs
        · omega
        · by_cases hk0 : k = 0
          · subst hk0
            exfalso; apply hs
            rw [List.head?_eq_getElem?, List.getElem?_eq_getElem ht] at b
            injection b
          · exact h4 a b (by omega)
    · rw [if_pos (by simpa using hne)]
      right
      refine ⟨n, rfl, by omega, by omega, ?_, h3, fun a b => h4 a b ?_⟩
      · have := congrArg (List.take n) h2
        rwa [List.take_take, List.take_take, Nat.min_eq_left h1] at this
      · by_contra h0
        have hk0 : k = 0 := by omega
        subst hk0
        rw [List.head?_eq_getElem?, List.getElem?_eq_getElem hf] at a
        rw [List.head?_eq_getElem?, List.getElem?_eq_getElem ht] at b
        injection a with a
        injection b with b
        exact hne (by rw [a, b])

/-- `n` hops up. -/
def ups : Nat → Str
  | 0 => []
  | n + 1 => ups n ++ str "../"

theorem up_loop (f : Str) (n : Nat) (hn : n ≤ f.length) :
    forUp n f.length [] (upStep f) = some (ups ((f.drop n).count slash)) := by
  obtain ⟨r, e, h⟩ := forUp_inv (lo := n) (hi := f.length) (s := []) (body := upStep f)
    (fun i r => r = ups (((f.take i).drop n).count slash)) hn
    (by rw [List.drop_eq_nil_of_le (by rw [List.length_take]; omega)]; rfl) (by
      intro k r hk hk' hr
      unfold upStep
      rw [List.getElem?_eq_getElem hk']
      refine ⟨_, rfl, ?_⟩
      rw [List.take_succ_eq_append_getElem hk', List.drop_append_of_le_length (by rw [List.length_take]; omega),
        List.count_append, hr]
      split_ifs with hs
      · rw [hs]; rfl
      · rw [show List.count slash [f[k]] = 0 by rw [List.count_eq_zero]; simpa using Ne.symm hs]; rfl)
  rw [e, h, List.take_length]

theorem comps_length (s : Str) : (comps s).length = s.count slash + 1 := by
  induction s with
  | nil => rfl
  | cons c s ih =>
    by_cases h : c = slash
    · subst h; simp only [comps, if_true, List.length_cons, ih, List.count_cons_self]
    · obtain ⟨p, ps, e1, e2⟩ := comps_nonslash h s
      rw [e2]; rw [e1] at ih
      rw [List.count_cons_of_ne h]; exact ih

theorem comps_ups (n : Nat) (t : Str) : comps (ups n ++ t) = List.replicate n (str "..") ++ comps t := by
  induction n generalizing t with
  | zero => rfl
  | succ n ih =>
    have e : ups (n + 1) ++ t = ups n ++ (str ".." ++ slash :: t) := by
      show (ups n ++ str "../") ++ t = _
      rw [List.append_assoc]; rfl
    rw [e, ih, comps_append_slash]
    have : comps (str "..") = [str ".."] := by decide +kernel
    rw [this, List.replicate_succ', List.append_assoc]

/-- Pushing `m` names and then `m` times `..` gives the stack back. -/
theorem push_pop (s l : List Str) (m : Nat) (hl : l.length = m) (hn : ∀ x ∈ l, x ≠ str "..") :
    (List.replicate m (str "..")).foldl stack1 (s ++ l) = s := by
  induction m generalizing l with
  | zero => rw [List.length_eq_zero_iff] at hl; subst hl; simp
  | succ m ih =>
    rcases dropLast_snoc_cases l with rfl | ⟨i, z, rfl⟩
    · simp at hl
    · rw [List.replicate_succ, List.foldl_cons]
      have : stack1 (s ++ (i ++ [z])) (str "..") = s ++ i := by
        unfold stack1
        rw [if_neg (by simp), if_pos rfl, ← List.append_assoc, List.dropLast_concat]
      rw [this]
      exact ih i (by simpa using hl) (fun x hx => hn x (by simp [hx]))

theorem foldl_push_any (l s : List Str) (h : ∀ x ∈ l, x ≠ str "..") : l.foldl stack1 s = s ++ l := by
  cases l with
  | nil => simp
  | cons x xs =>
    by_cases hs : s = []
    · subst hs
      rw [List.foldl_cons]
      have : stack1 [] x = [x] := rfl
      rw [this, foldl_push xs [x] (by simp) (fun y hy => h y (by simp [hy]))]; rfl
    · exact foldl_push _ s hs h

theorem clean_comps {p : Str} (h : Clean p) :
    (p.head? ≠ some slash ∧ ∀ x ∈ comps p, Name x) ∨
    (p.head? = some slash ∧ ∃ l, comps p = [] :: l ∧ l ≠ [] ∧ ∀ x ∈ l, Name x) := by
  obtain ⟨names, hne, hn, rfl | rfl⟩ := h
  · left
    have e := comps_glue names hne (fun x hx => (hn x hx).2.2.2)
    refine ⟨?_, by rw [e]; exact hn⟩
    rw [Ne, comps_head, e]
    rintro ⟨l, h, _⟩
    exact (hn [] (by rw [h]; simp)).1 rfl
  · right
    refine ⟨rfl, names, ?_, hne, hn⟩
    simp only [comps, if_true]
    rw [comps_glue names hne (fun x hx => (hn x hx).2.2.2)]

theorem starts_slash (b : Str) : starts b (.one slash) = some (decide (b.head? = some slash)) := by
  unfold starts
  cases b with
  | nil => rfl
  | cons c b => simp

theorem ends_slash (b : Str) : ends b (.one slash) = some (decide (b.getLast? = some slash)) := by
  unfold ends
  split_ifs with h
  · rw [List.getLast?_eq_getElem?, List.getElem?_eq_getElem (by omega)]
    simp
  · have : b = [] := by rw [← List.length_eq_zero_iff]; omega
    subst this; rfl

theorem dropLast_append_ne (a b : List Str) (h : b ≠ []) : (a ++ b).dropLast = a ++ b.dropLast :=
  List.dropLast_append_of_ne_nil h

variable (junk : Nat → Str) (hj : ∀ n, (junk n).length = n)
include hj

/-- **C22 (`relative` and `join`).** For all clean paths `from` and `to`, both absolute or both relative, with `from`
inside some directory: joining the directory of `from` with `relative(from, to)` gives `to`. -/
theorem C22_join_relative (from_ dst : Str) (hf : Clean from_) (ht : Clean dst)
    (habs : from_.head? = some slash ↔ dst.head? = some slash) (hdir : slash ∈ from_) :
    ∃ d r, dirname from_ = some d ∧ relative from_ dst = some r ∧ join junk d r = some dst := by
  -- all components but possibly the first are names
  have tailName : ∀ p, Clean p → ∀ x ∈ (comps p).tail, Name x := by
    intro p hp x hx
    rcases clean_comps hp with ⟨_, h⟩ | ⟨_, l, h, _, h2⟩
    · exact h x (List.mem_of_mem_tail hx)
    · rw [h] at hx; exact h2 x hx
  have allOk : ∀ p, Clean p → ∀ x ∈ comps p, x ≠ str "." ∧ x ≠ str ".." := by
    intro p hp x hx
    rcases clean_comps hp with ⟨_, h⟩ | ⟨_, l, h, _, h2⟩
    · exact ⟨(h x hx).2.1, (h x hx).2.2.1⟩
    · rw [h] at hx
      rcases List.mem_cons.1 hx with rfl | hx
      · exact ⟨by decide, by decide⟩
      · exact ⟨(h2 x hx).2.1, (h2 x hx).2.2.1⟩
  have lastName : ∀ p, Clean p → p.getLast? ≠ some slash := by
    intro p hp hl
    obtain ⟨i, hi⟩ := comps_last p hl
    rcases clean_comps hp with ⟨_, h⟩ | ⟨_, l, h, hne, h2⟩
    · exact (h [] (by rw [hi]; simp)).1 rfl
    · rw [h] at hi
      cases i with
      | nil => simp at hi; exact hne hi
      | cons a i =>
        rw [List.cons_append] at hi
        injection hi with _ hi
        exact (h2 [] (by rw [hi]; simp)).1 rfl
  obtain ⟨n, hn, hn1, hn2, heq, hcut, hpos⟩ := sameLen_spec from_ dst
  obtain ⟨d, fl, hd, hfl, hfrom, hfree, hdend⟩ := C22_dirname_filename from_ (lastName _ hf)
  -- the directory
  have hdne : d ≠ [] := by
    rintro rfl
    rw [List.nil_append] at hfrom
    rw [hfrom] at hdir; exact hfree hdir
  have hdl : d.getLast? = some slash := hdend.resolve_left hdne
  obtain ⟨D, rfl⟩ : ∃ D, d = D ++ [slash] := by
    rcases List.eq_nil_or_concat d with h | ⟨D, c, h⟩
    · exact absurd h hdne
    · rw [h] at hdl
      have : c = slash := by simpa using hdl
      exact ⟨D, by rw [h, this]; simp⟩
  have hcf : comps from_ = comps D ++ [fl] := by
    rw [hfrom, List.append_assoc, List.singleton_append, comps_append_slash, comps_free hfree]
  -- the common part
  obtain ⟨C0, hC1, hC2⟩ : ∃ C0, comps from_ = C0 ++ comps (from_.drop n) ∧ comps dst = C0 ++ comps (dst.drop n) := by
    rcases hcut with h0 | hs
    · subst h0; exact ⟨[], rfl, rfl⟩
    · have hn0 : 0 < n := by
        rcases Nat.eq_zero_or_pos n with h | h
        · subst h
          simp only [Nat.zero_sub] at hs
          exact hpos (by rw [List.head?_eq_getElem?]; exact hs) (habs.1 (by rw [List.head?_eq_getElem?]; exact hs))
        · exact h
      have hlt : n - 1 < from_.length := (List.getElem?_eq_some_iff.1 hs).1
      have es := (List.getElem?_eq_some_iff.1 hs).2
      have ea : from_.take n = from_.take (n - 1) ++ [slash] := by
        have := List.take_succ_eq_append_getElem hlt
        rw [show n - 1 + 1 = n by omega, es] at this; exact this
      refine ⟨comps (from_.take (n - 1)), ?_, ?_⟩
      · conv => lhs; rw [← List.take_append_drop n from_, ea, List.append_assoc, List.singleton_append, comps_append_slash]
      · conv => lhs; rw [← List.take_append_drop n dst, ← heq, ea, List.append_assoc, List.singleton_append, comps_append_slash]
  let m := (from_.drop n).count slash
  have hm : (comps (from_.drop n)).length = m + 1 := comps_length _
  have hD : comps D = C0 ++ (comps (from_.drop n)).dropLast := by
    have := congrArg List.dropLast hcf
    rw [List.dropLast_concat, hC1, dropLast_append_ne _ _ (comps_ne _)] at this
    exact this.symm
  refine ⟨D ++ [slash], ups m ++ dst.drop n, hd, ?_, ?_⟩
  · unfold relative
    rw [hn]
    simp only [Option.bind_eq_bind, Option.bind_some]
    rw [up_loop _ _ hn1]; rfl
  · -- the second path is relative
    have hb : (ups m ++ dst.drop n).head? ≠ some slash := by
      intro hh
      by_cases hm0 : m = 0
      · rw [hm0] at hh
        simp only [ups, List.nil_append] at hh
        obtain ⟨l, hl, hlne⟩ := (comps_head _).1 hh
        rw [hl] at hC2
        rcases clean_comps ht with ⟨_, h⟩ | ⟨habs', l', h, _, h2⟩
        · exact (h [] (by rw [hC2]; simp)).1 rfl
        · have hn0 := hpos (habs.2 habs') habs'
          cases C0 with
          | nil =>
            have := congrArg List.length hC2
            rw [comps_length, ← hl, List.nil_append, comps_length] at this
            have e1 : dst.count slash = (dst.take n).count slash + (dst.drop n).count slash := by
              rw [← List.count_append, List.take_append_drop]
            have : slash ∈ dst.take n := by
              cases dst with
              | nil => simp at habs'
              | cons c dst =>
                have : c = slash := by simpa using habs'
                subst this
                obtain ⟨n', rfl⟩ : ∃ n', n = n' + 1 := ⟨n - 1, by omega⟩
                simp
            have := List.count_pos_iff.2 this
            omega
          | cons a C =>
            rw [h, List.cons_append] at hC2
            injection hC2 with _ hC2
            exact (h2 [] (by rw [hC2]; simp)).1 rfl
      · obtain ⟨k, hk⟩ : ∃ k, m = k + 1 := ⟨m - 1, by omega⟩
        have hh' := (comps_head _).1 hh
        rw [hk, comps_ups] at hh'
        obtain ⟨l, hl, _⟩ := hh'
        rw [List.replicate_succ, List.cons_append] at hl
        injection hl with hl _
        exact absurd hl (by decide)
    unfold join
    rw [starts_slash, ends_slash]
    simp only [Option.bind_eq_bind, Option.bind_some]
    rw [if_neg (by simpa using hb), if_pos (by simp), normalize_eq junk hj]
    have ec : comps ((D ++ [slash]) ++ (ups m ++ dst.drop n)) =
        (C0 ++ (comps (from_.drop n)).dropLast) ++ (List.replicate m (str "..") ++ comps (dst.drop n)) := by
      rw [List.append_assoc, List.singleton_append, comps_append_slash, comps_ups, hD]
    rw [ec]
    have hN : (comps (from_.drop n)).dropLast.length = m := by rw [List.length_dropLast, hm]; rfl
    have hNm : ∀ x ∈ (comps (from_.drop n)).dropLast, x ≠ str "." ∧ x ≠ str ".." := by
      intro x hx
      exact allOk _ hf x (by rw [hC1]; exact List.mem_append_right _ (List.mem_of_mem_dropLast' hx))
    have hCm : ∀ x ∈ C0, x ≠ str "." ∧ x ≠ str ".." := fun x hx => allOk _ hf x (by rw [hC1]; simp [hx])
    have hTm : ∀ x ∈ comps (dst.drop n), x ≠ str "." ∧ x ≠ str ".." :=
      fun x hx => allOk _ ht x (by rw [hC2]; simp [hx])
    rw [tidy_id, resolve, List.foldl_append, List.foldl_append, List.foldl_append, foldl_push_any C0 [] (fun x hx => (hCm x hx).2),
      foldl_push_any _ _ (fun x hx => (hNm x hx).2), List.nil_append, push_pop _ _ m hN (fun x hx => (hNm x hx).2),
      foldl_push_any _ _ (fun x hx => (hTm x hx).2), ← hC2, glue_comps]
    -- the list is tidy
    refine ⟨fun x hx => ?_, fun x hx => ?_⟩
    · simp only [List.mem_append, List.mem_replicate] at hx
      rcases hx with (hx | hx) | (hx | hx)
      · exact (hCm x hx).1
      · exact (hNm x hx).1
      · rw [hx.2]; decide
      · exact (hTm x hx).1
    · replace hx := List.mem_of_mem_dropLast' hx
      rw [← hD] at hx
      rw [List.tail_append_of_ne_nil (comps_ne D)] at hx
      simp only [List.mem_append, List.mem_replicate] at hx
      rcases hx with hx | (hx | hx)
      · refine (tailName _ hf x ?_).1
        rw [hcf, List.tail_append_of_ne_nil (comps_ne D)]; simp [hx]
      · rw [hx.2]; decide
      · -- an empty component of the rest of `to` could only be its first
        rintro rfl
        rcases clean_comps ht with ⟨_, h⟩ | ⟨habs', l', h, _, h2⟩
        · exact (h [] (by rw [hC2]; simp [hx])).1 rfl
        · cases C0 with
          | nil =>
            have hn0 := hpos (habs.2 habs') habs'
            have := congrArg List.length hC2
            rw [comps_length, List.nil_append, comps_length] at this
            have e1 : dst.count slash = (dst.take n).count slash + (dst.drop n).count slash := by
              rw [← List.count_append, List.take_append_drop]
            have : slash ∈ dst.take n := by
              cases dst with
              | nil => simp at habs'
              | cons c dst =>
                have : c = slash := by simpa using habs'
                subst this
                obtain ⟨n', rfl⟩ : ∃ n', n = n' + 1 := ⟨n - 1, by omega⟩
                simp
            have := List.count_pos_iff.2 this
            omega
          | cons a C =>
            rw [h, List.cons_append] at hC2
            injection hC2 with _ hC2
            exact (h2 [] (by rw [hC2]; simp [hx])).1 rfl

/-- Finding: joining onto the empty directory makes the path absolute; the directory of a bare file name is empty, so
`join(dirname("f"), relative("f", "x"))` is `/x`. -/
theorem C22_join_empty (b : Str) (hb : Clean b) (hrel : b.head? ≠ some slash) : join junk [] b = some (slash :: b) := by
  unfold join
  rw [starts_slash, ends_slash]
  simp only [Option.bind_eq_bind, Option.bind_some]
  rw [if_neg (by simpa using hrel), if_neg (by simp), normalize_eq junk hj]
  have hn := (clean_comps hb).resolve_right (fun h => hrel h.1)
  have ec : comps (([] ++ [slash]) ++ b) = [] :: comps b := by
    show comps (slash :: b) = _
    simp only [comps, if_true]
  rw [ec, tidy_id, resolve_id]
  · rw [glue_cons_ne _ _ (comps_ne b), glue_comps]; rfl
  · intro x hx; exact (hn.2 x hx).2.2.1
  · refine ⟨fun x hx => ?_, fun x hx => ?_⟩
    · rcases List.mem_cons.1 hx with rfl | hx
      · decide
      · exact (hn.2 x hx).2.1
    · exact (hn.2 x (List.mem_of_mem_dropLast' hx)).1

omit hj

/-- Concrete clean paths for the theorems above. -/
example : Clean (str "/a/b/c.fu") ∧ Clean (str "/a/x/y.fu") ∧
    relative (str "/a/b/c.fu") (str "/a/x/y.fu") = some (str "../x/y.fu") := by
  refine ⟨⟨[str "a", str "b", str "c.fu"], by simp, ?_, Or.inr (by decide +kernel)⟩,
    ⟨[str "a", str "x", str "y.fu"], by simp, ?_, Or.inr (by decide +kernel)⟩, by decide +kernel⟩
  all_goals
    intro x hx
    simp only [List.mem_cons, List.not_mem_nil, or_false] at hx
    rcases hx with rfl | rfl | rfl <;> refine ⟨?_, ?_, ?_, ?_⟩ <;> decide +kernel

end Verif.Path
