import Verif.CgNum

/-!
# C92: arguments put into temporaries
-/

namespace Verif.CgMean

open Verif.CgText Verif.CgExpr Verif.CppGram Verif.CgTree

variable {W : World}

/-! ## The numbers of temporaries grow -/

theorem via_le (m : Mode) (t : Ty) (tv : Option Nat) (x : N) (s : Text) (k : Nat) :
    k ≤ (via m t tv x s k).2.2 := by
  have h : k ≤ (via.viaTemp m t tv s k).2.2 := by
    unfold via.viaTemp; dsimp only; split <;> omega
  unfold via
  split
  · exact Nat.le_refl _
  · split
    · split
      · exact Nat.le_refl _
      · exact h
    · exact h

theorem cgArgs_le (mask : Nat) : (args : List N) → (∀ x ∈ args, ∀ m k, k ≤ (cg m x k).2) →
    ∀ i k, k ≤ (cgArgs mask i args k).2.2
  | [], _, i, k => by simp [cgArgs]
  | a :: rest, H, i, k => by
      have ha := H a (by simp) argMode k
      have hr := cgArgs_le mask rest (fun x hx => H x (List.mem_cons_of_mem _ hx)) (i + 1)
      simp only [cgArgs]
      split
      · have := hr ((cg argMode a k).2 + 1); dsimp only; omega
      · have := hr ((cg argMode a k).2); dsimp only; omega

theorem cgConcat_le (m : Mode) (o : Op) : (l : List N) → (∀ x ∈ l, ∀ m k, k ≤ (cg m x k).2) →
    ∀ k, k ≤ (cgConcat m o l k).2
  | [], _, k => by simp [cgConcat]
  | [x], H, k => by simp only [cgConcat]; exact H x (by simp) m k
  | x :: y :: r, H, k => by
      simp only [cgConcat]
      have := H x (by simp) m k
      have := cgConcat_le m o (y :: r) (fun z hz => H z (List.mem_cons_of_mem _ hz)) (cg m x k).2
      omega

theorem cgAndV_le (t : Ty) : (l : List N) → (∀ x ∈ l, ∀ m k, k ≤ (cg m x k).2) → ∀ tv k, k ≤ (cgAndV t tv l k).2
  | [], _, tv, k => by simp [cgAndV]
  | [x], H, tv, k => by simp only [cgAndV]; exact H x (by simp) {} k
  | x :: y :: r, H, tv, k => by
      simp only [cgAndV]
      have h1 := H x (by simp) {} k
      have h2 := via_le {} t tv x (cg {} x k).1 (cg {} x k).2
      have h3 := cgAndV_le t (y :: r) (fun z hz => H z (List.mem_cons_of_mem _ hz))
        (via {} t tv x (cg {} x k).1 (cg {} x k).2).2.1 (via {} t tv x (cg {} x k).1 (cg {} x k).2).2.2
      omega

theorem cgAndVia_le (m : Mode) (t : Ty) (tv : Option Nat) : (l : List N) → (∀ x ∈ l, ∀ m k, k ≤ (cg m x k).2) →
    ∀ k, k ≤ (cgAndVia m t tv l k).2.2
  | [], _, k => by simp [cgAndVia]
  | [x], H, k => by
      simp only [cgAndVia]
      have h1 := H x (by simp) {} k
      have h2 := via_le m t tv x (cg {} x k).1 (cg {} x k).2
      omega
  | x :: y :: r, H, k => by
      simp only [cgAndVia]
      have h1 := H x (by simp) {} k
      have h3 := cgAndVia_le m t tv (y :: r) (fun z hz => H z (List.mem_cons_of_mem _ hz)) (cg {} x k).2
      omega

theorem cgOrV_le (m : Mode) (t : Ty) : (l : List N) → (∀ x ∈ l, ∀ m k, k ≤ (cg m x k).2) →
    (∀ x ∈ l, ∀ ta its, x = .and ta its → ∀ y ∈ its, ∀ m k, k ≤ (cg m y k).2) → ∀ tv k, k ≤ (cgOrV m t tv l k).2
  | [], _, _, tv, k => by simp [cgOrV]
  | [x], H, _, tv, k => by simp only [cgOrV]; exact H x (by simp) m k
  | x :: y :: r, H, H', tv, k => by
      have ih := cgOrV_le m t (y :: r) (fun z hz => H z (List.mem_cons_of_mem _ hz)) (fun z hz => H' z (List.mem_cons_of_mem _ hz))
      rcases not_and_or x with ⟨ta, its, rfl⟩ | hx
      · rw [cgOrV_and]
        have h1 := cgAndVia_le m t tv its (H' _ (by simp) ta its rfl) k
        have h2 := ih (cgAndVia m t tv its k).2.1 (cgAndVia m t tv its k).2.2
        exact Nat.le_trans h1 h2
      · rw [cgOrV_other m t tv x hx]
        have h1 := H x (by simp) {} k
        have h2 := via_le m t tv x (cg {} x k).1 (cg {} x k).2
        have h3 := ih (via m t tv x (cg {} x k).1 (cg {} x k).2).2.1 (via m t tv x (cg {} x k).1 (cg {} x k).2).2.2
        exact Nat.le_trans h1 (Nat.le_trans h2 h3)

theorem cg_le_aux : ∀ (n : Nat) (e : N), sizeOf e < n → ∀ m k, k ≤ (cg m e k).2 := by
  intro n
  induction n with
  | zero => intro e h; omega
  | succ n ih =>
      intro e hn m k
      have HL : ∀ (l : List N), sizeOf l < n → ∀ x ∈ l, ∀ m k, k ≤ (cg m x k).2 :=
        fun l hl x hx m k => ih x (by have := List.sizeOf_lt_of_mem hx; omega) m k
      cases e with
      | var | num | flag | pre | post => simp only [cg]; exact Nat.le_refl _
      | fld t e f | un t o e | asg t o x e | not e | copy t e =>
          simp only [cg]; exact ih e (by simp at hn; omega) _ k
      | call t f mask args =>
          simp only [cg]
          exact cgArgs_le mask args (HL args (by simp at hn; omega)) 0 k
      | bin t o mask a b =>
          simp only [cg]
          have ha := ih a (by simp at hn; omega) argMode k
          have hb := ih b (by simp at hn; omega) argMode (if held mask 0 a [b] = true then (cg argMode a k).2 + 1 else (cg argMode a k).2)
          split at hb <;> split <;> simp_all <;> omega
      | ite t c a b =>
          simp only [cg]
          have hc := ih c (by simp at hn; omega) {} k
          have ha := ih a (by simp at hn; omega) m.pass (cg {} c k).2
          have hb := ih b (by simp at hn; omega) m.pass (cg m.pass a (cg {} c k).2).2
          omega
      | and t items =>
          have H := HL items (by simp at hn; omega)
          simp only [cg]
          split
          · exact cgConcat_le _ _ items H k
          · exact cgAndV_le t items H none k
      | or t items =>
          have H := HL items (by simp at hn; omega)
          simp only [cg]
          split
          · exact cgConcat_le _ _ items H k
          · refine cgOrV_le _ t items H (fun x hx ta its e => HL its ?_) none k
            have := List.sizeOf_lt_of_mem hx
            subst e
            simp at this hn
            omega

/-- the next free number is never a smaller one -/
theorem cg_le (m : Mode) (e : N) (k : Nat) : k ≤ (cg m e k).2 := cg_le_aux _ e (Nat.lt_succ_self _) m k

/-! ## Comma expressions -/

/-- Evaluated for what they do. -/
def each : List C → D W Unit
  | [] => D.ret ()
  | c :: r => D.seq (den c) fun _ => each r

theorem ret_seq {α β : Type} (a : α) (f : α → D W β) : D.seq (D.ret a) f = f a := by
  funext s r
  apply propext
  constructor
  · rintro ⟨r1, h1, h2⟩; cases h1; exact h2
  · intro h; exact ⟨_, rfl, h⟩

theorem den_commas (l : List C) (c a : C) :
    den (W := W) ((l ++ [c]).foldl .comma a) = D.seq (den a) fun _ => D.seq (each l) fun _ => den c := by
  induction l generalizing a with
  | nil =>
      rw [List.nil_append, List.foldl_cons, List.foldl_nil, den]
      congr 1
      funext x
      rw [each, ret_seq]
  | cons b l ih =>
      rw [List.cons_append, List.foldl_cons, ih, den, seq_assoc]
      congr 1
      funext x
      rw [each, seq_assoc]

/-- first the temporaries, then the call -/
theorem den_ooe (hs : List C) (c : C) : den (W := W) (ooeC hs c) = D.seq (each hs) fun _ => den c := by
  cases hs with
  | nil => rw [ooeC, each, ret_seq]
  | cons h r => rw [ooeC, den_commas, each, seq_assoc]

/-! ## What the arguments compute -/

variable (W) in
/-- The arguments that are put into temporaries are computed; for each argument, what is left to
compute. -/
def heldF (mask : Nat) : Nat → List N → M W (List (M W CVal))
  | _, [], s => some ([], s)
  | i, a :: rest, s =>
      if held mask i a rest then
        (run W a s).bind fun x => (heldF mask (i + 1) rest x.2).map fun y => ((fun s => some (.v x.1, s)) :: y.1, y.2)
      else
        (heldF mask (i + 1) rest s).map fun y => ((fun s => up (run W a s)) :: y.1, y.2)

theorem comm_heldF {α : Type} (f : M W α) (mask : Nat) : (args : List N) → (∀ b ∈ args, Comm f (run W b)) →
    ∀ i, Comm f (heldF W mask i args)
  | [], _, i => by
      intro s
      simp only [heldF, Option.map, Option.bind]
      cases f s <;> rfl
  | a :: rest, H, i => by
      intro s
      have ih := comm_heldF f mask rest (fun b hb => H b (List.mem_cons_of_mem _ hb)) (i + 1)
      have ha := H a (by simp)
      simp only [heldF]
      cases hh : held mask i a rest with
      | false =>
          simp only [Bool.false_eq_true, if_false]
          have := congrArg (Option.map fun (x : α × List (M W CVal) × W.σ) =>
            (x.1, (fun s => up (run W a s)) :: x.2.1, x.2.2)) (ih s)
          simp only [Option.map_bind, Option.map_map, Function.comp_def] at this
          simp only [Option.map_map, Function.comp_def, Option.bind_map]
          exact this
      | true =>
          simp only [if_true]
          have h1 := ha s
          -- f, a, rest = a, f, rest = a, rest, f
          have e1 : ((f s).bind fun x => ((run W a x.2).bind fun y =>
              (heldF W mask (i + 1) rest y.2).map fun z => ((fun s => some (CVal.v y.1, s)) :: z.1, z.2)).map
                fun y => (x.1, y.1, y.2)) =
              ((f s).bind fun x => (run W a x.2).map fun y => (x.1, y.1, y.2)).bind fun (p : α × Val × W.σ) =>
                (heldF W mask (i + 1) rest p.2.2).map fun z => (p.1, (fun s => some (CVal.v p.2.1, s)) :: z.1, z.2) := by
            cases f s with
            | none => rfl
            | some x =>
                simp only [Option.bind]
                cases run W a x.2 with
                | none => rfl
                | some y =>
                    simp only [Option.map]
                    cases heldF W mask (i + 1) rest y.2 <;> rfl
          rw [e1, h1]
          cases run W a s with
          | none => rfl
          | some y =>
              simp only [Option.bind]
              have h2 := ih y.2
              cases hf : f y.2 with
              | none =>
                  rw [hf] at h2
                  cases hr : heldF W mask (i + 1) rest y.2 with
                  | none => rfl
                  | some z =>
                      rw [hr] at h2
                      simp only [Option.bind, Option.map] at h2 ⊢
                      cases hf2 : f z.2 with
                      | none => rfl
                      | some w => rw [hf2] at h2; cases h2
              | some x =>
                  rw [hf] at h2
                  simp only [Option.map] at h2 ⊢
                  cases hr : heldF W mask (i + 1) rest y.2 with
                  | none =>
                      rw [hr] at h2
                      simp only [Option.bind] at h2
                      cases hr2 : heldF W mask (i + 1) rest x.2 with
                      | none => rfl
                      | some z => rw [hr2] at h2; cases h2
                  | some z =>
                      rw [hr] at h2
                      simp only [Option.bind] at h2 ⊢
                      cases hr2 : heldF W mask (i + 1) rest x.2 with
                      | none =>
                          rw [hr2] at h2
                          cases hf2 : f z.2 with
                          | none => rfl
                          | some w => rw [hf2] at h2; cases h2
                      | some z' =>
                          rw [hr2] at h2
                          cases hf2 : f z.2 with
                          | none => rw [hf2] at h2; cases h2
                          | some w =>
                              rw [hf2] at h2
                              simp only [Option.some.injEq, Prod.mk.injEq] at h2 ⊢
                              exact ⟨h2.1, by rw [h2.2.1], h2.2.2⟩

theorem reads_chain : (e : N) → chain e = reads e
  | .fld _ e _ => by simp only [chain, reads]; exact reads_chain e
  | .var _ _ => rfl
  | .num _ _ | .flag _ | .call _ _ _ _ | .un _ _ _ | .bin _ _ _ _ _ | .asg _ _ _ _ | .pre _ _ _ | .post _ _ _
  | .not _ | .ite _ _ _ _ | .and _ _ | .or _ _ | .copy _ _ => rfl

/-- what is not put into a temporary is not in the mask, or only reads, or is followed by what only reads -/
theorem not_held {mask i : Nat} {a : N} {rest : List N} (h : held mask i a rest = false) :
    mask.testBit (i % 32) = false ∨ reads a = true ∨ ∀ b ∈ rest, reads b = true := by
  simp only [held, Bool.and_eq_false_iff, Bool.not_eq_false', Bool.or_eq_true, Bool.and_eq_true, List.all_eq_true] at h
  rcases h with h | h | ⟨_, h⟩
  · exact Or.inl h
  · exact Or.inr (Or.inl (by rw [← reads_chain]; exact h))
  · exact Or.inr (Or.inr fun b hb => by rw [← reads_chain]; exact h b hb)

/-- **First the arguments with temporaries, then the others, is all of them from left to right.** -/
theorem heldF_seq (mask : Nat) : (args : List N) → ∀ i, Seqd W mask i args → ∀ s,
    (heldF W mask i args s).bind (fun y => seqF y.1 y.2) = (runL W args s).map fun x => (x.1.map .v, x.2)
  | [], i, _, s => by simp [heldF, runL, seqF]
  | a :: rest, i, h, s => by
      simp only [Seqd] at h
      have ih := heldF_seq mask rest (i + 1) h.2
      simp only [heldF, runL]
      cases hh : held mask i a rest with
      | true =>
          simp only [if_true]
          cases run W a s with
          | none => rfl
          | some x =>
              simp only [Option.bind]
              have := ih x.2
              cases h1 : heldF W mask (i + 1) rest x.2 with
              | none =>
                  rw [h1] at this
                  cases h2 : runL W rest x.2 with
                  | none => rfl
                  | some y => rw [h2] at this; cases this
              | some y =>
                  rw [h1] at this
                  simp only [Option.bind] at this
                  simp only [Option.map, seqF, Option.bind]
                  rw [this]
                  cases runL W rest x.2 <;> rfl
      | false =>
          simp only [Bool.false_eq_true, if_false]
          have hc := comm_heldF (run W a) mask rest (h.1 (not_held hh)) (i + 1) s
          have e1 : ((heldF W mask (i + 1) rest s).map fun y => ((fun s => up (run W a s)) :: y.1, y.2)).bind
                (fun y => seqF y.1 y.2) =
              ((heldF W mask (i + 1) rest s).bind fun y => (run W a y.2).map fun x => (x.1, y.1, x.2)).bind
                fun (p : Val × List (M W CVal) × W.σ) => (seqF p.2.1 p.2.2).map fun z => (CVal.v p.1 :: z.1, z.2) := by
            cases heldF W mask (i + 1) rest s with
            | none => rfl
            | some y =>
                simp only [Option.map, Option.bind, seqF, up]
                cases run W a y.2 <;> rfl
          rw [e1, ← hc]
          cases run W a s with
          | none => rfl
          | some x =>
              simp only [Option.bind]
              have := ih x.2
              cases h1 : heldF W mask (i + 1) rest x.2 with
              | none =>
                  rw [h1] at this
                  cases h2 : runL W rest x.2 with
                  | none => rfl
                  | some y => rw [h2] at this; cases this
              | some y =>
                  rw [h1] at this
                  simp only [Option.bind] at this
                  simp only [Option.map]
                  rw [this]
                  cases runL W rest x.2 <;> rfl

theorem comm_const {α β : Type} (c : β) (f : M W α) : Comm (fun s => some (c, s)) f := by
  intro s
  simp only [Option.bind, Option.map]
  cases f s <;> rfl

theorem comm_up {f g : M W Val} (h : Comm f g) : Comm (fun s => up (f s)) (fun s => up (g s)) := by
  intro s
  have := congrArg (Option.map fun (x : Val × Val × W.σ) => (CVal.v x.1, CVal.v x.2.1, x.2.2)) (h s)
  simp only [Option.map_bind, Option.map_map, Function.comp_def] at this
  simp only [up, Option.bind_map, Option.map_map, Function.comp_def]
  exact this

/-- what is left to compute can be computed in any order -/
theorem heldF_comm (mask : Nat) : (args : List N) → ∀ i, Seqd W mask i args → ∀ s fs s',
    heldF W mask i args s = some (fs, s') →
      (∀ f ∈ fs, (∃ v : Val, f = fun s => some (CVal.v v, s)) ∨ ∃ b ∈ args, f = fun s => up (run W b s)) ∧
      fs.Pairwise Comm
  | [], i, _, s, fs, s', h => by
      simp only [heldF, Option.some.injEq, Prod.mk.injEq] at h
      rw [← h.1]
      exact ⟨by simp, List.Pairwise.nil⟩
  | a :: rest, i, hS, s, fs, s', h => by
      simp only [Seqd] at hS
      have ih := heldF_comm mask rest (i + 1) hS.2
      simp only [heldF] at h
      cases hh : held mask i a rest with
      | true =>
          rw [hh] at h
          simp only [if_true] at h
          cases h1 : run W a s with
          | none => rw [h1] at h; cases h
          | some x =>
              rw [h1] at h
              simp only [Option.bind] at h
              cases h2 : heldF W mask (i + 1) rest x.2 with
              | none => rw [h2] at h; cases h
              | some y =>
                  rw [h2] at h
                  simp only [Option.map, Option.some.injEq, Prod.mk.injEq] at h
                  obtain ⟨ih1, ih2⟩ := ih x.2 y.1 y.2 h2
                  rw [← h.1]
                  refine ⟨?_, List.Pairwise.cons (fun f _ => comm_const _ f) ih2⟩
                  intro f hf
                  rcases List.mem_cons.1 hf with rfl | hf
                  · exact Or.inl ⟨x.1, rfl⟩
                  · rcases ih1 f hf with h' | ⟨b, hb, h'⟩
                    · exact Or.inl h'
                    · exact Or.inr ⟨b, List.mem_cons_of_mem _ hb, h'⟩
      | false =>
          rw [hh] at h
          simp only [Bool.false_eq_true, if_false] at h
          cases h2 : heldF W mask (i + 1) rest s with
          | none => rw [h2] at h; cases h
          | some y =>
              rw [h2] at h
              simp only [Option.map, Option.some.injEq, Prod.mk.injEq] at h
              obtain ⟨ih1, ih2⟩ := ih s y.1 y.2 h2
              rw [← h.1]
              refine ⟨?_, List.Pairwise.cons (fun f hf => ?_) ih2⟩
              · intro f hf
                rcases List.mem_cons.1 hf with rfl | hf
                · exact Or.inr ⟨a, by simp, rfl⟩
                · rcases ih1 f hf with h' | ⟨b, hb, h'⟩
                  · exact Or.inl h'
                  · exact Or.inr ⟨b, List.mem_cons_of_mem _ hb, h'⟩
              · rcases ih1 f hf with ⟨v, rfl⟩ | ⟨b, hb, rfl⟩
                · exact (comm_const _ _).symm
                · exact comm_up (hS.1 (not_held hh) b hb)

end Verif.CgMean
