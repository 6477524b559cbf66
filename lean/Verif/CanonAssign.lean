import Verif.CanonProps
/-! # C33: assignability decided on the text of two names is assignability of the types they name -/
namespace Verif.Canon
open Verif Verif.Helpers

theorem zip_eq (rec : Str → Str → Except Err Bool) : ∀ (ag ah : Args) (_ : ag.Ok) (_ : ah.Ok) (preh preg : Str)
    (_ : ∀ q t q' t', (q', t') ∈ ag.toList → t.Ok → rec (enc q ++ t.render) (enc q' ++ t'.render) = .ok (accepts (enc q) t (enc q') t')),
    zipArgs rec (preh ++ ah.render) (preg ++ ag.render) preh.length preg.length = .ok (someArg ah ag)
  | .one q' t', .one q t, hg, hh, preh, preg, hr => by
    have e1 := hr q t q' t' (by simp [Args.toList]) hh
    simp only [Args.render, someArg]
    rw [zipArgs]
    rw [scan_end (walk_item q t hh) preh, scan_end (walk_item q' t' hg) preg]
    dsimp only
    rw [if_neg (by simp), slice_tail]
    dsimp only
    rw [slice_tail]
    dsimp only
    rw [e1]
    cases accepts (enc q) t (enc q') t' <;> simp
  | .one q' t', .cons q t rest, hg, hh, preh, preg, hr => by
    have e2 := scan_stop (walk_item q t hh.1) ⟨by decide, by decide⟩ preh rest.render
    have e5 : str ":" = [ch ':'] := rfl
    simp only [Args.render, someArg]
    rw [zipArgs]
    rw [scan_end (walk_item q' t' hg) preg]
    simp only [← List.append_assoc, e5] at e2 ⊢
    rw [e2]
    rw [if_pos (by simp)]
  | .cons q' t' rest', .one q t, hg, hh, preh, preg, hr => by
    have e2 := scan_stop (walk_item q' t' hg.1) ⟨by decide, by decide⟩ preg rest'.render
    have e5 : str ":" = [ch ':'] := rfl
    simp only [Args.render, someArg]
    rw [zipArgs]
    rw [scan_end (walk_item q t hh) preh]
    simp only [← List.append_assoc, e5] at e2 ⊢
    rw [e2]
    rw [if_pos (by simp)]
  | .cons q' t' rest', .cons q t rest, hg, hh, preh, preg, hr => by
    have e1 := hr q t q' t' (by simp [Args.toList]) hh.1
    have e2 := scan_stop (walk_item q' t' hg.1) ⟨by decide, by decide⟩ preg rest'.render
    have e3 := scan_stop (walk_item q t hh.1) ⟨by decide, by decide⟩ preh rest.render
    have e4 := slice_mid preh (enc q ++ t.render) (str ":" ++ rest.render)
    have e6 := slice_mid preg (enc q' ++ t'.render) (str ":" ++ rest'.render)
    have e7 := zip_eq rec rest' rest hg.2 hh.2 (preh ++ (enc q ++ t.render) ++ str ":") (preg ++ (enc q' ++ t'.render) ++ str ":")
      (fun a b c d hm => hr a b c d (by simp only [Args.toList]; exact List.mem_cons_of_mem _ hm))
    have e5 : str ":" = [ch ':'] := rfl
    simp only [Args.render, someArg]
    rw [zipArgs]
    simp only [← List.append_assoc, e5] at e1 e2 e3 e4 e6 e7 ⊢
    rw [e2, e3]
    dsimp only
    rw [if_neg (by simp), e4]
    dsimp only
    rw [e6]
    dsimp only
    rw [e1]
    have l1 : (preh ++ enc q ++ t.render ++ [ch ':']).length = preh.length + (enc q ++ t.render).length + 1 := by
      simp only [List.length_append, List.length_singleton]; omega
    have l2 : (preg ++ enc q' ++ t'.render ++ [ch ':']).length = preg.length + (enc q' ++ t'.render).length + 1 := by
      simp only [List.length_append, List.length_singleton]; omega
    rw [l1, l2] at e7
    cases accepts (enc q) t (enc q') t' with
    | true => rfl
    | false =>
      dsimp only
      rw [dif_neg (by simp), e7]
      rfl

/-- one label of the guest matches one of the host -/
def labelOk (T : Target.Packed) (ah : Args) (T' : Target.Packed) (ag : Args) : Bool :=
  T' == T && if !ah.deep && !ag.deep then ah.render == ag.render else ah.deep && ag.deep && someArg ah ag

theorem hasLabel_last (T : Target.Packed) (ah : Args) (T' : Target.Packed) (ag : Args) :
    hasLabel T ah (.last T' ag) = labelOk T ah T' ag := by simp only [hasLabel, labelOk]

theorem hasLabel_more (T : Target.Packed) (ah : Args) (T' : Target.Packed) (ag : Args) (rest : Labels) :
    hasLabel T ah (.more T' ag rest) = (labelOk T ah T' ag || hasLabel T ah rest) := by simp only [hasLabel, labelOk]

/-- the guest has a label of the host's template whose arguments match -/
theorem has_eq (rec : Str → Str → Except Err Bool) (T : Target.Packed) (ah : Args) (hh : ah.Ok) (last : Bool) :
    ∀ (ls : Labels) (_ : ls.Ok)
    (_ : ∀ T' ag, (T', ag) ∈ ls.toList → ∀ q t q' t', (q', t') ∈ ag.toList → t.Ok →
      rec (enc q ++ t.render) (enc q' ++ t'.render) = .ok (accepts (enc q) t (enc q') t')),
    visitAll (matchSub rec { text := ah.render, specOf := T, isDeep := ah.deep, isLast := last }) ls.subs =
      .ok (if hasLabel T ah ls then some () else none) := by
  have one : ∀ (T' : Target.Packed) (ag : Args) (hg : ag.Ok) (l : Bool)
      (_ : ∀ q t q' t', (q', t') ∈ ag.toList → t.Ok → rec (enc q ++ t.render) (enc q' ++ t'.render) = .ok (accepts (enc q) t (enc q') t')),
      matchSub rec { text := ah.render, specOf := T, isDeep := ah.deep, isLast := last }
        { text := ag.render, specOf := T', isDeep := ag.deep, isLast := l } =
      .ok (if labelOk T ah T' ag then some () else none) := by
    intro T' ag hg l hr
    unfold matchSub labelOk
    simp only
    have ez := zip_eq rec ag ah hg hh [] [] hr
    simp only [List.nil_append, List.length_nil] at ez
    rw [ez]
    by_cases hT : T' = T
    · subst hT
      rw [if_neg (by simp)]
      cases ah.deep <;> cases ag.deep <;> simp
    · rw [if_pos hT, if_neg (by simp [hT])]
  intro ls
  induction ls using Labels.rec (motive_1 := fun _ => True) (motive_2 := fun _ => True) with
  | last T' ag _ =>
    intro hl hr
    simp only [Labels.subs, visitAll]
    rw [hasLabel_last, one T' ag hl.2 true (hr T' ag (by simp [Labels.toList]))]
    generalize labelOk T ah T' ag = x
    cases x <;> rfl
  | more T' ag rest _ ih =>
    intro hl hr
    simp only [Labels.subs, visitAll]
    rw [hasLabel_more, one T' ag hl.2.1 false (hr T' ag (by simp [Labels.toList]))]
    rw [ih hl.2.2 fun a b hm => hr a b (by simp only [Labels.toList]; exact List.mem_cons_of_mem _ hm)]
    generalize labelOk T ah T' ag = x
    cases x <;> rfl
  | _ => trivial

/-- every label of the host is matched -/
theorem all_eq (rec : Str → Str → Except Err Bool) (ls' : Labels) (hg : ls'.Ok)
    (hr : ∀ T' ag, (T', ag) ∈ ls'.toList → ∀ q t q' t', (q', t') ∈ ag.toList → t.Ok →
      rec (enc q ++ t.render) (enc q' ++ t'.render) = .ok (accepts (enc q) t (enc q') t')) :
    ∀ (ls : Labels) (_ : ls.Ok), visitAll (matchHost rec ls'.render) ls.subs =
      .ok (if ls.all fun t a => hasLabel t a ls' then none else some ()) := by
  intro ls
  induction ls using Labels.rec (motive_1 := fun _ => True) (motive_2 := fun _ => True) with
  | last T a _ =>
    intro hl
    simp only [Labels.subs, visitAll]
    rw [Labels.all]
    unfold matchHost
    rw [labels_enumerated ls' hg, has_eq rec T a hl.2 true ls' hg hr]
    cases hasLabel T a ls' <;> rfl
  | more T a rest _ ih =>
    intro hl
    simp only [Labels.subs, visitAll]
    rw [Labels.all]
    unfold matchHost
    rw [labels_enumerated ls' hg, has_eq rec T a hl.2.1 false ls' hg hr]
    have := ih hl.2.2
    unfold matchHost at this
    cases hasLabel T a ls' with
    | true => simpa using this
    | false => rfl
  | _ => trivial

/-- nothing, or the qualifiers of an item -/
def IsPrefix (p : Str) : Prop := p = [] ∨ ∃ q, p = enc q

theorem IsPrefix.no_paren {p : Str} (h : IsPrefix p) : ch '(' ∉ p := by
  rcases h with rfl | ⟨q, rfl⟩
  · simp
  · exact paren_enc q

theorem head_append {a b : Str} (h : a ≠ []) : (a ++ b).head? = a.head? := by
  cases a with
  | nil => exact absurd rfl h
  | cons x a => rfl

mutual
/-- sizes, to justify the recursion of the next theorem -/
def Ty.sz : Ty → Nat
  | .name _ => 1
  | .arr _ t => t.sz + 1
  | .gen _ ls => ls.sz + 1
def Args.sz : Args → Nat
  | .one _ t => t.sz + 1
  | .cons _ t rest => t.sz + rest.sz + 1
def Labels.sz : Labels → Nat
  | .last _ a => a.sz + 1
  | .more _ a rest => a.sz + rest.sz + 1
end

theorem sz_args (a : Args) (q : BitVec 32) (t : Ty) (h : (q, t) ∈ a.toList) : t.sz < a.sz := by
  induction a using Args.rec (motive_1 := fun _ => True) (motive_3 := fun _ => True) with
  | one q' t' _ =>
    simp only [Args.toList, List.mem_singleton, Prod.mk.injEq] at h
    simp only [Args.sz, h.2]; omega
  | cons q' t' rest _ ih =>
    simp only [Args.toList, List.mem_cons, Prod.mk.injEq] at h
    simp only [Args.sz]
    rcases h with h | h
    · rw [h.2]; omega
    · have := ih h; omega
  | _ => trivial

theorem sz_labels (ls : Labels) (T : Target.Packed) (a : Args) (h : (T, a) ∈ ls.toList) : a.sz < ls.sz := by
  induction ls using Labels.rec (motive_1 := fun _ => True) (motive_2 := fun _ => True) with
  | last q' t' _ =>
    simp only [Labels.toList, List.mem_singleton, Prod.mk.injEq] at h
    simp only [Labels.sz, h.2]; omega
  | more q' t' rest _ ih =>
    simp only [Labels.toList, List.mem_cons, Prod.mk.injEq] at h
    simp only [Labels.sz]
    rcases h with h | h
    · rw [h.2]; omega
    · have := ih h; omega
  | _ => trivial

theorem ok_args (a : Args) (h : a.Ok) (q : BitVec 32) (t : Ty) (hm : (q, t) ∈ a.toList) : t.Ok := by
  induction a using Args.rec (motive_1 := fun _ => True) (motive_3 := fun _ => True) with
  | one q' t' _ =>
    simp only [Args.toList, List.mem_singleton, Prod.mk.injEq] at hm
    rw [hm.2]; exact h
  | cons q' t' rest _ ih =>
    simp only [Args.toList, List.mem_cons, Prod.mk.injEq] at hm
    rcases hm with hm | hm
    · rw [hm.2]; exact h.1
    · exact ih h.2 hm
  | _ => trivial

theorem ok_labels (ls : Labels) (h : ls.Ok) (T : Target.Packed) (a : Args) (hm : (T, a) ∈ ls.toList) : GoodT T ∧ a.Ok := by
  induction ls using Labels.rec (motive_1 := fun _ => True) (motive_2 := fun _ => True) with
  | last q' t' _ =>
    simp only [Labels.toList, List.mem_singleton, Prod.mk.injEq] at hm
    rw [hm.1, hm.2]; exact h
  | more q' t' rest _ ih =>
    simp only [Labels.toList, List.mem_cons, Prod.mk.injEq] at hm
    rcases hm with hm | hm
    · rw [hm.1, hm.2]; exact ⟨h.1, h.2.1⟩
    · exact ih h.2.2 hm
  | _ => trivial

theorem accepts_eq (n : Nat) : ∀ (g : Ty) (_ : g.sz ≤ n) (_ : g.Ok) (h : Ty) (_ : h.Ok) (p p' : Str) (_ : IsPrefix p) (_ : IsPrefix p')
    (_ : (p' ++ g.render).head? ≠ some (ch '[')),
    isCanonAssignable (p ++ h.render) (p' ++ g.render) = .ok (accepts p h p' g) := by
  induction n with
  | zero =>
    intro g hn
    cases g <;> simp [Ty.sz] at hn
  | succ n ih =>
    intro g hn hg h hh p p' hp hp' hb
    rw [assign_eq]
    have hplain : endsWith (p' ++ g.render) (ch ')') = false → assignStep isCanonAssignable (p ++ h.render) (p' ++ g.render) =
        .ok (p ++ h.render == p' ++ g.render) := by
      intro he
      unfold assignStep
      rw [if_pos (by rw [he]; rfl), if_neg (by unfold startsWith; simpa using hb)]
    cases g with
    | name s =>
      rw [hplain (by rw [name_render]; exact not_ends_plain _ hg)]
      simp only [accepts]
    | arr q t =>
      rw [hplain (not_ends_arr _ _ _)]
      simp only [accepts]
    | gen b' ls' =>
      have hne' : p' ++ b' ≠ [] := by simp [hg.1.1]
      have hnp' : ch '(' ∉ p' ++ b' := by
        rw [List.mem_append]; rintro (e | e); exact hp'.no_paren e; exact paren_plain hg.1 e
      rw [gen_render]
      have g0 := findPlus1_eq hnp' (ls'.render ++ str ")")
      have gs := slice_pattern (p' ++ b') ls'.render
      have ge := endsWith_paren (p' ++ b' ++ str "(" ++ ls'.render)
      simp only [← List.append_assoc] at g0 gs ge ⊢
      unfold assignStep
      rw [if_neg (by rw [ge]; simp)]
      dsimp only
      rw [g0]
      have hnot : endsWith (p ++ h.render) (ch ')') = false → (match h with | .gen .. => False | _ => True) →
          (if (!endsWith (p ++ h.render) (ch ')')) = true then
            if (p' ++ b').length + 1 = 0 then (Except.error Err.ub : Except Err Bool)
            else .ok (p ++ h.render == (p' ++ b' ++ str "(" ++ ls'.render ++ str ")").take ((p' ++ b').length + 1 - 1))
            else .error .ub) = .ok (p ++ h.render == p' ++ b') := by
        intro he _
        rw [if_pos (by rw [he]; rfl), if_neg (by omega), Nat.add_sub_cancel]
        have : (p' ++ b' ++ str "(" ++ ls'.render ++ str ")").take (p' ++ b').length = p' ++ b' := by
          rw [List.append_assoc, List.append_assoc, List.take_left]
        rw [this]
      cases h with
      | name s =>
        have he : endsWith (p ++ (Ty.name s).render) (ch ')') = false := by rw [name_render]; exact not_ends_plain _ hh
        have := hnot he trivial
        rw [if_pos (by rw [he]; rfl)] at this ⊢
        rw [this]
        simp only [accepts]
      | arr q t =>
        have he := not_ends_arr p q t
        have := hnot he trivial
        rw [if_pos (by rw [he]; rfl)] at this ⊢
        rw [this]
        simp only [accepts]
      | gen b ls =>
        have hne : p ++ b ≠ [] := by simp [hh.1.1]
        have hnp : ch '(' ∉ p ++ b := by
          rw [List.mem_append]; rintro (e | e); exact hp.no_paren e; exact paren_plain hh.1 e
        have h0 := findPlus1_eq hnp (ls.render ++ str ")")
        have hs := slice_pattern (p ++ b) ls.render
        have he := endsWith_paren (p ++ b ++ str "(" ++ ls.render)
        rw [gen_render]
        simp only [← List.append_assoc] at h0 hs he ⊢
        rw [if_neg (by rw [he]; simp), h0, hs, gs]
        dsimp only
        have hd : ∀ (x y z : Str), x ≠ [] → (x ++ str "(" ++ y ++ z).head? = x.head? := by
          intro x y z hx
          rw [List.append_assoc, List.append_assoc, head_append hx]
        rw [hd _ _ _ hne, hd _ _ _ hne', labels_enumerated ls hh.2]
        rw [all_eq isCanonAssignable ls' hg.2 ?_ ls hh.2]
        · simp only [accepts]
          by_cases hq : (p ++ b).head? = (p' ++ b').head?
          · rw [if_neg (by simp [hq]), hq]
            cases ls.all fun t a => hasLabel t a ls' <;> simp
          · rw [if_pos hq, beq_false_of_ne hq]
            rfl
        · intro T' ag hm q t q' t' hm' ht
          have s1 := sz_labels _ _ _ hm
          have s2 := sz_args _ _ _ hm'
          simp only [Ty.sz] at hn
          refine ih t' (by omega) (ok_args _ (ok_labels _ hg.2 _ _ hm).2 _ _ hm') t ht (enc q) (enc q') (Or.inr ⟨q, rfl⟩) (Or.inr ⟨q', rfl⟩) ?_
          rw [head_append (enc_bytes q').1]
          intro e
          have := List.mem_of_mem_head? e
          exact ((enc_bytes q').2 _ this).2.2.2.2 rfl

/-- **C33** On the names of any two types, however deeply nested, the decision taken on the text neither fails nor reads
out of bounds, and is the one described on the types. -/
theorem assignable_eq_spec (h g : Ty) (hh : h.Ok) (hg : g.Ok) : isCanonAssignable h.render g.render = .ok (acceptsTop h g) := by
  by_cases ha : ∃ q g', g = .arr q g'
  · obtain ⟨q', g', rfl⟩ := ha
    rw [assign_eq]
    have hS : ∀ x : Str, slice (str "[" ++ x ++ str "]") 1 ((str "[" ++ x ++ str "]").length - 1) = .ok x := by
      intro x
      have := slice_mid (str "[") x (str "]")
      have e : (str "[" ++ x ++ str "]").length - 1 = (str "[").length + x.length := by simp [str]; omega
      rw [e]
      exact this
    have hrec : ∀ q h, h.Ok → isCanonAssignable (enc q ++ h.render) (enc q' ++ g'.render) = .ok (accepts (enc q) h (enc q') g') := by
      intro q h hh
      refine accepts_eq _ g' (Nat.le_refl _) hg h hh _ _ (Or.inr ⟨q, rfl⟩) (Or.inr ⟨q', rfl⟩) ?_
      rw [head_append (enc_bytes q').1]
      intro e
      have := List.mem_of_mem_head? e
      exact ((enc_bytes q').2 _ this).2.2.2.2 rfl
    have h1 : startsWith (Ty.arr q' g').render (ch '[') = true := by simp only [Ty.render, startsWith]; rfl
    unfold assignStep
    rw [if_pos (by have := not_ends_arr [] q' g'; rw [List.nil_append] at this; rw [this]; rfl), if_pos h1]
    cases h with
    | name s =>
      rw [if_neg (by rw [name_render]; unfold startsWith; simpa using hh.2.1)]
      rfl
    | gen b ls =>
      have : (Ty.gen b ls).render.head? = b.head? := by
        rw [gen_render, List.append_assoc, List.append_assoc, head_append hh.1.1]
      rw [if_neg (by unfold startsWith; rw [this]; simpa using hh.1.2.1)]
      rfl
    | arr q h =>
      have h2 : startsWith (Ty.arr q h).render (ch '[') = true := by simp only [Ty.render, startsWith]; rfl
      rw [if_pos h2]
      have e1 : (Ty.arr q h).render = str "[" ++ (enc q ++ h.render) ++ str "]" := by simp only [Ty.render]
      have e2 : (Ty.arr q' g').render = str "[" ++ (enc q' ++ g'.render) ++ str "]" := by simp only [Ty.render]
      rw [e1, e2, hS, hS]
      exact hrec q h hh
  · have : acceptsTop h g = accepts [] h [] g := by
      unfold acceptsTop
      cases h <;> cases g <;> first | rfl | exact absurd ⟨_, _, rfl⟩ ha
    rw [this]
    have := accepts_eq g.sz g (Nat.le_refl _) hg h hh [] [] (Or.inl rfl) (Or.inl rfl) ?_
    · simpa using this
    · rw [List.nil_append]
      cases g with
      | name s => rw [name_render]; exact hg.2.1
      | arr q g => exact absurd ⟨_, _, rfl⟩ ha
      | gen b ls => rw [gen_render, List.append_assoc, List.append_assoc, head_append hg.1.1]; exact hg.1.2.1

end Verif.Canon
