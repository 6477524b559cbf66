import Verif.StmtRel

/-!
# C93: what the text of a statement looks like
-/

namespace Verif.StmtText

open Verif.CgText Verif.CgExpr Verif.CgStmt Verif.CppStmt Verif.StmtRun

variable (odd : List Sym → Bool)

/-- The statements of a branch or a body. -/
def itemsOf : S → List S
  | .block _ items => items
  | s => [s]

/-- What is around the statements of a branch or a body. -/
def envOf (env : Env) (lb : Bool) (s : S) (l : Nat) : Env :=
  (if lb then { env with cont := helper s } else env).push (.bl l) (helper s)

theorem sub_eq (env : Env) (lb : Bool) (s : S) (l k : Nat) :
    sub odd env lb s l k = ⟨wrap odd true (itemsOf s).length l (lines odd (envOf env lb s l) (itemsOf s) (l + 1) k), 0, 0,
      (lines odd (envOf env lb s l) (itemsOf s) (l + 1) k).l, (lines odd (envOf env lb s l) (itemsOf s) (l + 1) k).k⟩ := by
  cases s with
  | block h items => rw [sub.eq_def]; rfl
  | _ =>
      rw [sub.eq_def]
      dsimp only [itemsOf, envOf, helper]
      rw [lines, lines]
      simp

mutual
/-- There is no loop with `on enter`. -/
def noEnter : S → Bool
  | .ite _ a b => noEnter a && noEnter b
  | .and _ s | .or _ s => noEnter s
  | .block _ items => noEnterL items
  | .loop _ _ _ body _ _ => noEnter body
  | .enter _ _ _ _ _ _ _ _ => false
  | .expr _ | .empty | .jump _ _ => true
def noEnterL : List S → Bool
  | [] => true
  | s :: r => noEnter s && noEnterL r
end

theorem noEnterL_mem {l : List S} (h : noEnterL l = true) : ∀ s ∈ l, noEnter s = true := by
  induction l with
  | nil => intro s hs; cases hs
  | cons a l ih =>
      rw [noEnterL, Bool.and_eq_true] at h
      intro s hs
      rcases List.mem_cons.1 hs with rfl | hs
      · exact h.1
      · exact ih h.2 s hs

theorem noEnter_items {s : S} (h : noEnter s = true) : noEnterL (itemsOf s) = true := by
  cases s <;> first
    | (simp only [itemsOf, noEnterL, h, Bool.and_self]; done)
    | (rw [noEnter] at h; exact h)

theorem items_size {s x : S} (h : x ∈ itemsOf s) : sizeOf x ≤ sizeOf s := by
  cases s with
  | block o items =>
      have := List.sizeOf_lt_of_mem (show x ∈ items from h)
      simp only [S.block.sizeOf_spec]; omega
  | _ => cases List.mem_singleton.1 h; exact Nat.le_refl _

/-! ## Labels are numbered upwards -/

theorem lines_mono {items : List S} (h : ∀ s ∈ items, ∀ env l k, l ≤ (line odd env s l k).l) :
    ∀ env l k, l ≤ (lines odd env items l k).l := by
  induction items with
  | nil => intro env l k; rw [lines]; exact Nat.le_refl _
  | cons s r ih =>
      intro env l k
      rw [lines]
      exact Nat.le_trans (h s (List.mem_cons_self ..) env l k) (ih (fun x hx => h x (List.mem_cons_of_mem _ hx)) env _ _)

theorem sub_mono {s : S} (h : ∀ x ∈ itemsOf s, ∀ env l k, l ≤ (line odd env x l k).l) (env : Env) (lb : Bool) (l k : Nat) :
    l ≤ (sub odd env lb s l k).l := by
  rw [sub_eq]
  exact Nat.le_trans (Nat.le_succ l) (lines_mono odd h _ _ _)

theorem line_mono : ∀ (N : Nat) (s : S), sizeOf s < N → ∀ env l k, l ≤ (line odd env s l k).l := by
  intro N
  induction N with
  | zero => intro s h; omega
  | succ N ih =>
      intro s hN env l k
      have hS : ∀ (x : S) env lb l k, sizeOf x < N → l ≤ (sub odd env lb x l k).l := fun x env lb l k hx =>
        sub_mono odd (fun y hy => ih y (by have := items_size hy; omega)) env lb l k
      cases s with
      | expr e => rw [line]; exact Nat.le_refl _
      | empty => rw [line]; exact Nat.le_refl _
      | ite c a b =>
          simp only [S.ite.sizeOf_spec] at hN
          rw [line]
          dsimp only
          refine Nat.le_trans (hS a env false l (cg { parens := true } c k).2 (by omega)) ?_
          cases isIf b
          · exact hS b _ _ _ _ (by omega)
          · exact ih b (by omega) _ _ _
      | and cs b => simp only [S.and.sizeOf_spec] at hN; rw [line]; exact hS b _ _ _ _ (by omega)
      | or cs b => simp only [S.or.sizeOf_spec] at hN; rw [line]; exact hS b _ _ _ _ (by omega)
      | block h items =>
          simp only [S.block.sizeOf_spec] at hN
          rw [line]
          exact Nat.le_trans (Nat.le_succ l) (lines_mono odd (fun x hx => ih x (by have := List.sizeOf_lt_of_mem hx; omega)) _ _ _)
      | loop h init cond body post pcond =>
          simp only [S.loop.sizeOf_spec] at hN
          rw [line]
          exact Nat.le_trans (Nat.le_succ l) (hS body _ _ _ _ (by omega))
      | enter h init cond hp pre body post pcond => rw [line]; exact Nat.le_refl _
      | jump h e =>
          cases e with
          | none => rw [line]; exact Nat.le_refl _
          | some e =>
              rw [line]
              by_cases hr : h = env.ret
              · rw [if_pos hr]; exact Nat.le_refl _
              · rw [if_neg hr]; exact Nat.le_refl _

/-! ## Jumps in the text are jumps of the statement -/

theorem goto_term {g : Lab} {t : List Tk} : Tk.goto g ∈ term t ↔ .goto g ∈ t := by
  unfold term
  by_cases h1 : t.isEmpty = true
  · rw [if_pos h1]; rw [List.isEmpty_iff] at h1; subst h1; rfl
  · rw [if_neg h1]
    by_cases h2 : t.getLast? = some .semi
    · rw [if_pos h2]
    · rw [if_neg h2]; simp

theorem goto_decls {g : Lab} {d : Nat} : Tk.goto g ∉ (List.replicate d [Tk.decl, .semi]).flatten := by
  intro h
  obtain ⟨x, hx, hg⟩ := List.mem_flatten.1 h
  obtain ⟨_, rfl⟩ := List.mem_replicate.1 hx
  simp at hg

theorem goto_row {g : Lab} {d : Nat} {t : List Tk} : Tk.goto g ∈ row d t ↔ .goto g ∈ t := by
  rw [row, List.mem_append, goto_term]
  exact ⟨fun h => h.resolve_left goto_decls, Or.inr⟩

theorem goto_wrap {g : Lab} {opt : Bool} {len l : Nat} {r : R} : Tk.goto g ∈ wrap odd opt len l r ↔ .goto g ∈ r.t := by
  unfold wrap
  split
  · rfl
  · split <;> simp

theorem goto_exO {g : Lab} {m : Mode} {e : Option N} {k : Nat} : Tk.goto g ∉ exO m e k := by
  cases e <;> simp [exO, ex]

theorem goto_postO {g : Lab} {post : List N} {k : Nat} : Tk.goto g ∉ postO post k := by
  unfold postO
  split <;> simp

theorem goto_loop {g : Lab} {l : Nat} {init cond : Option N} {post : List N} {pcond : Option N} {k : Nat} {body : List Tk} :
    Tk.goto g ∈ loopText l init cond post pcond k body ↔ .goto g ∈ body := by
  unfold loopText
  cases pcond with
  | some c => simp only [List.mem_append]; simp
  | none =>
      simp only []
      split <;> simp [goto_exO, goto_postO]

theorem name_push {env : Env} {g : Lab} {x : Option Nat} {h : Nat} :
    (env.push g x).name h = if x = some h then g else env.name h := by
  unfold Env.name
  rw [StmtRel.find_push]
  split <;> rfl

theorem envOf_brk {env : Env} {lb : Bool} {s : S} {l : Nat} : (envOf env lb s l).brk = env.brk := by
  cases lb <;> rfl

theorem envOf_name {env : Env} {lb : Bool} {s : S} {l h : Nat} :
    (envOf env lb s l).name h = if helper s = some h then .bl l else env.name h := by
  unfold envOf
  rw [name_push]
  cases lb <;> rfl

/-- What a jump in the text says. -/
def Far (env : Env) (s : S) (g : Lab) : Prop := ∃ h, env.name h = g ∧ far h (decide (env.brk ≠ some h)) s = true

theorem lines_far {items : List S} (h : ∀ s ∈ items, ∀ env l k g, Tk.goto g ∈ (line odd env s l k).t → g.num < l → Far env s g) :
    ∀ env l k g, Tk.goto g ∈ (lines odd env items l k).t → g.num < l →
      ∃ x, env.name x = g ∧ farL x (decide (env.brk ≠ some x)) items = true := by
  induction items with
  | nil => intro env l k g hg; rw [lines] at hg; cases hg
  | cons s r ih =>
      intro env l k g hg hl
      rw [lines] at hg
      dsimp only at hg
      rw [List.mem_append, goto_row] at hg
      rcases hg with hg | hg
      · obtain ⟨x, h1, h2⟩ := h s (List.mem_cons_self ..) env l k g hg hl
        exact ⟨x, h1, by rw [farL, h2]; rfl⟩
      · obtain ⟨x, h1, h2⟩ := ih (fun x hx => h x (List.mem_cons_of_mem _ hx)) env _ _ g hg
          (Nat.lt_of_lt_of_le hl (line_mono odd _ s (Nat.lt_succ_self _) env l k))
        exact ⟨x, h1, by rw [farL, h2]; simp⟩

theorem far_items {h : Nat} {i : Bool} (s : S) : farL h i (itemsOf s) = far h i s := by
  cases s <;> simp [itemsOf, farL, far]

theorem sub_far {s : S} (h : ∀ x ∈ itemsOf s, ∀ env l k g, Tk.goto g ∈ (line odd env x l k).t → g.num < l → Far env x g)
    (env : Env) (lb : Bool) (l k : Nat) (g : Lab) (hg : Tk.goto g ∈ (sub odd env lb s l k).t) (hl : g.num < l) : Far env s g := by
  rw [sub_eq] at hg
  dsimp only at hg
  rw [goto_wrap] at hg
  obtain ⟨x, h1, h2⟩ := lines_far odd h _ _ _ g hg (by omega)
  rw [envOf_name] at h1
  rw [envOf_brk, far_items] at h2
  by_cases hx : helper s = some x
  · rw [if_pos hx] at h1; subst h1; simp only [Lab.num] at hl; omega
  · rw [if_neg hx] at h1; exact ⟨x, h1, h2⟩

/-- a jump in the text, to a label that was there before, is one that `break` cannot do -/
theorem goto_far : ∀ (N : Nat) (s : S), sizeOf s < N → ∀ env l k g, Tk.goto g ∈ (line odd env s l k).t → g.num < l → Far env s g := by
  intro N
  induction N with
  | zero => intro s h; omega
  | succ N ih =>
      intro s hN env l k g hg hl
      have hS : ∀ (x : S) env lb l k, sizeOf x < N → Tk.goto g ∈ (sub odd env lb x l k).t → g.num < l → Far env x g :=
        fun x env lb l k hx => sub_far odd (fun y hy => ih y (by have := items_size hy; omega)) env lb l k g
      cases s with
      | expr e => rw [line] at hg; simp [ex] at hg
      | empty => rw [line] at hg; cases hg
      | ite c a b =>
          simp only [S.ite.sizeOf_spec] at hN
          rw [line] at hg
          simp only [List.mem_append] at hg
          rcases hg with (hg | hg) | hg
          · simp [ex] at hg
          · obtain ⟨x, h1, h2⟩ := hS a _ _ _ _ (by omega) hg hl
            exact ⟨x, h1, by rw [far, h2]; rfl⟩
          · have hl' : g.num < (sub odd env false a l (cg { parens := true } c k).2).l :=
              Nat.lt_of_lt_of_le hl (sub_mono odd (fun y _ => line_mono odd _ y (Nat.lt_succ_self _)) _ _ _ _)
            have : Far env b g := by
              by_cases he : ((if isIf b = true then line odd env b (sub odd env false a l (cg { parens := true } c k).2).l
                  (sub odd env false a l (cg { parens := true } c k).2).k
                else sub odd env false b (sub odd env false a l (cg { parens := true } c k).2).l
                  (sub odd env false a l (cg { parens := true } c k).2).k).t.isEmpty) = true
              · rw [if_pos he] at hg; cases hg
              · rw [if_neg he] at hg
                rcases List.mem_cons.1 hg with hg | hg
                · cases hg
                · by_cases hb : isIf b = true
                  · rw [if_pos hb] at hg; exact ih b (by omega) _ _ _ g hg hl'
                  · rw [if_neg hb] at hg; exact hS b _ _ _ _ (by omega) hg hl'
            obtain ⟨x, h1, h2⟩ := this
            exact ⟨x, h1, by rw [far, h2]; simp⟩
      | and cs b =>
          simp only [S.and.sizeOf_spec] at hN
          rw [line] at hg
          simp only [List.mem_append] at hg
          rcases hg with hg | hg
          · simp at hg
          · obtain ⟨x, h1, h2⟩ := hS b _ _ _ _ (by omega) hg hl
            exact ⟨x, h1, by rw [far, h2]⟩
      | or cs b =>
          simp only [S.or.sizeOf_spec] at hN
          rw [line] at hg
          simp only [List.mem_append] at hg
          rcases hg with hg | hg
          · simp at hg
          · obtain ⟨x, h1, h2⟩ := hS b _ _ _ _ (by omega) hg hl
            exact ⟨x, h1, by rw [far, h2]⟩
      | block h items =>
          simp only [S.block.sizeOf_spec] at hN
          rw [line] at hg
          dsimp only at hg
          rw [goto_wrap] at hg
          obtain ⟨x, h1, h2⟩ := lines_far odd (fun x hx => ih x (by have := List.sizeOf_lt_of_mem hx; omega)) _ _ _ g hg (by omega)
          rw [name_push] at h1
          by_cases hx : h = some x
          · rw [if_pos hx] at h1; subst h1; simp only [Lab.num] at hl; omega
          · rw [if_neg hx] at h1
            exact ⟨x, h1, by rw [far]; exact h2⟩
      | loop h init cond body post pcond =>
          simp only [S.loop.sizeOf_spec] at hN
          rw [line] at hg
          dsimp only at hg
          rw [goto_loop] at hg
          obtain ⟨x, h1, h2⟩ := hS body _ _ _ _ (by omega) hg (by omega)
          have h1 : (env.push (.ll l) (some h)).name x = g := h1
          rw [name_push] at h1
          by_cases hx : some h = some x
          · rw [if_pos hx] at h1; subst h1; simp only [Lab.num] at hl; omega
          · rw [if_neg hx] at h1
            refine ⟨x, h1, ?_⟩
            rw [far]
            simpa [hx] using h2
      | enter h init cond hp pre body post pcond => rw [line] at hg; cases hg
      | jump h e =>
          cases e with
          | none =>
              rw [line] at hg
              simp only [List.mem_singleton] at hg
              by_cases h1 : h = env.ret
              · rw [if_pos h1] at hg; cases hg
              · rw [if_neg h1] at hg
                by_cases h2 : env.brk = some h
                · rw [if_pos h2] at hg; cases hg
                · rw [if_neg h2] at hg
                  by_cases h3 : env.cont = some h
                  · rw [if_pos h3] at hg; cases hg
                  · rw [if_neg h3] at hg
                    cases hg
                    exact ⟨h, rfl, by rw [far]; simp [h2]⟩
          | some e =>
              rw [line] at hg
              by_cases h1 : h = env.ret
              · rw [if_pos h1] at hg; simp [ex] at hg
              · rw [if_neg h1] at hg
                simp [ex] at hg
                exact ⟨h, hg.symm, by rw [far]; simp⟩

/-! ## Text without blocks and conditionals -/

theorem curly_append (a b : List Tk) : curly odd (a ++ b) = (curly odd a || curly odd b) := by simp [curly]

theorem curly_lbr {t : List Tk} (h : curly odd t = false) : Tk.lbr ∉ t ∧ Tk.kif ∉ t := by
  unfold curly at h
  rw [List.any_eq_false] at h
  exact ⟨fun hm => h _ hm rfl, fun hm => h _ hm rfl⟩

theorem curly_term {t : List Tk} (h : curly odd (term t) = false) : curly odd t = false := by
  unfold term at h
  by_cases h1 : t.isEmpty = true
  · rw [List.isEmpty_iff] at h1; subst h1; rfl
  · rw [if_neg h1] at h
    by_cases h2 : t.getLast? = some .semi
    · rwa [if_pos h2] at h
    · rw [if_neg h2, curly_append, Bool.or_eq_false_iff] at h; exact h.1

theorem wrap_lbr {opt : Bool} {len l : Nat} {r : R} (h : Tk.lbr ∉ wrap odd opt len l r) :
    len = 1 ∧ r.n = 1 ∧ opt = true ∧ Tk.goto (.bl l) ∉ r.t ∧ wrap odd opt len l r = r.t ∧ curly odd r.t = false := by
  unfold wrap at h ⊢
  by_cases hc : (opt && len == 1 && r.n == 1 && !r.t.contains (.goto (.bl l)) && !curly odd r.t) = true
  · rw [if_pos hc]
    simp only [Bool.and_eq_true, beq_iff_eq, Bool.not_eq_true', List.contains_eq_mem, decide_eq_false_iff_not] at hc
    exact ⟨hc.1.1.1.2, hc.1.1.2, hc.1.1.1.1, hc.1.2, rfl, hc.2⟩
  · rw [if_neg hc] at h
    split at h <;> simp at h

/-- a branch or body without curlies is one statement -/
theorem sub_lbr {env : Env} {lb : Bool} {s : S} {l k : Nat} (h : Tk.lbr ∉ (sub odd env lb s l k).t) :
    ∃ x, itemsOf s = [x] ∧ (line odd (envOf env lb s l) x (l + 1) k).d = 0 ∧
      (sub odd env lb s l k).t = term (line odd (envOf env lb s l) x (l + 1) k).t ∧
      curly odd (sub odd env lb s l k).t = false ∧ Tk.goto (.bl l) ∉ (sub odd env lb s l k).t := by
  rw [sub_eq] at h ⊢
  dsimp only at h ⊢
  obtain ⟨h1, h2, _, h4, h3, h5⟩ := wrap_lbr odd h
  match hi : itemsOf s, h1 with
  | [x], _ =>
      rw [hi] at h2 h3 h4 h5
      rw [h3]
      rw [lines, lines] at h2
      have hd : (line odd (envOf env lb s l) x (l + 1) k).d = 0 := by
        have h2' : _ + 1 + 0 = 1 := h2
        omega
      refine ⟨x, rfl, hd, ?_, h5, h4⟩
      rw [lines, lines]
      dsimp only
      rw [List.append_nil, row, hd]
      rfl

theorem curly_loop {l : Nat} {init cond : Option N} {post : List N} {pcond : Option N} {k : Nat} {body : List Tk}
    (h : curly odd (loopText l init cond post pcond k body) = false) : curly odd body = false := by
  unfold loopText at h
  cases pcond with
  | some c =>
      simp only [curly_append, Bool.or_eq_false_iff] at h
      exact h.1.1.2
  | none =>
      simp only [] at h
      split at h
      · simp only [curly_append, Bool.or_eq_false_iff] at h
        exact h.1.2
      · simp only [curly_append, Bool.or_eq_false_iff] at h
        exact h.1.2

theorem straight_loop {h init cond body post pcond x} (hi : itemsOf body = [x]) (hx : straight x = true) (hn : noEnter body = true) :
    straight (.loop h init cond body post pcond) = true := by
  cases body with
  | block o items => cases (show items = [x] from hi); rw [straight]; exact hx
  | _ => cases hi; exact hx

/-- without curlies and conditionals it is a simple statement, or a loop over one, and so on -/
theorem curly_straight : ∀ (N : Nat) (s : S), sizeOf s < N → noEnter s = true → ∀ env l k,
    curly odd (line odd env s l k).t = false → straight s = true := by
  intro N
  induction N with
  | zero => intro s h; omega
  | succ N ih =>
      intro s hN hn env l k hc
      cases s with
      | expr e => rfl
      | empty => rfl
      | jump h e => rfl
      | enter h init cond hp pre body post pcond => rw [noEnter] at hn; cases hn
      | ite c a b => rw [line] at hc; exact absurd (List.mem_append.2 (Or.inl (List.mem_append.2 (Or.inl (List.mem_cons_self ..))))) (curly_lbr odd hc).2
      | and cs b => rw [line] at hc; exact absurd (List.mem_append.2 (Or.inl (List.mem_cons_self ..))) (curly_lbr odd hc).2
      | or cs b => rw [line] at hc; exact absurd (List.mem_append.2 (Or.inl (List.mem_cons_self ..))) (curly_lbr odd hc).2
      | block h items =>
          rw [line] at hc
          dsimp only at hc
          have := (wrap_lbr odd (curly_lbr odd hc).1).2.2.1
          cases this
      | loop h init cond body post pcond =>
          simp only [S.loop.sizeOf_spec] at hN
          rw [line] at hc
          dsimp only at hc
          have hb := curly_loop odd hc
          obtain ⟨x, hi, hd, ht, hcx, _⟩ := sub_lbr odd (curly_lbr odd hb).1
          rw [ht] at hcx
          have hm : x ∈ itemsOf body := by rw [hi]; exact List.mem_singleton.2 rfl
          rw [noEnter] at hn
          refine straight_loop hi (ih x (by have := items_size hm; omega) (noEnterL_mem (noEnter_items hn) x hm) _ _ _ (curly_term odd hcx)) hn

/-- nothing is written for nothing -/
theorem sub_silent {env : Env} {lb : Bool} {s : S} {l k : Nat} (h : silent s = true) : (sub odd env lb s l k).t = [] := by
  have hi : itemsOf s = [.empty] := by
    unfold silent at h
    cases s with
    | block o items =>
        match items with
        | [] => simp [only] at h
        | [x] => cases x <;> simp [only] at h; rfl
        | x :: y :: r => simp [only] at h
    | empty => rfl
    | _ => simp [only] at h
  rw [sub_eq, hi]
  dsimp only
  rw [lines, lines, line]
  simp [wrap, row, term, curly]

end Verif.StmtText
