import Verif.LexerSpec
import Verif.AsciiProps
import Mathlib.Tactic.SplitIfs
import Mathlib.Tactic.ByContra
/-!
# Lemmas about the lexer's loops
-/
namespace Verif.Lexer
open Verif

theorem byte_all (P : Byte → Bool) (h : ∀ n : Fin 256, P (.ofFin n) = true) (b : Byte) : P b = true := by
  have := h b.toFin
  simpa using this

theorem idStart_eq (b : Byte) : idStart b = letter b := by
  have := byte_all (fun b => idStart b == letter b) (by decide +kernel) b
  simpa using this
theorem idChar_eq (b : Byte) : idChar b = (letter b || digit b) := by
  have := byte_all (fun b => idChar b == (letter b || digit b)) (by decide +kernel) b
  simpa using this
theorem blank_eq (b : Byte) : Byte.le b (ch ' ') = blank b := by
  have := byte_all (fun b => Byte.le b (ch ' ') == blank b) (by decide +kernel) b
  simpa using this
theorem digit_eq (b : Byte) : rng (ch '0') (ch '9') b = digit b := by
  have := byte_all (fun b => rng (ch '0') (ch '9') b == digit b) (by decide +kernel) b
  simpa using this

/-! ### Reading -/

theorem drop_cons {src : Str} {i : Nat} {c : Byte} {t : Str} (h : src.drop i = c :: t) :
    i < src.length ∧ src[i]? = some c ∧ src.drop (i + 1) = t := by
  have hl : i < src.length := by
    rcases Nat.lt_or_ge i src.length with h' | h'
    · exact h'
    · rw [List.drop_eq_nil_of_le h'] at h; simp at h
  refine ⟨hl, ?_, ?_⟩
  · rw [List.getElem?_eq_getElem hl]
    have h2 := h
    rw [List.drop_eq_getElem_cons hl] at h2
    injection h2 with h3 _
    rw [h3]
  · rw [← List.tail_drop, h]; rfl

theorem rd_cons {src : Str} {i : Nat} {c : Byte} {t : Str} (h : src.drop i = c :: t) : rd src i = .ok c := by
  unfold rd; rw [(drop_cons h).2.1]

theorem drop_nil {src : Str} {i : Nat} (h : src.drop i = []) : ¬ i < src.length := by
  rw [List.drop_eq_nil_iff] at h; omega

theorem drop_add {src : Str} {i : Nat} {a b : Str} (h : src.drop i = a ++ b) : src.drop (i + a.length) = b := by
  rw [← List.drop_drop, h]; simp

theorem drop_le {src : Str} {i : Nat} {a b : Str} (h : src.drop i = a ++ b) (hi : i ≤ src.length) :
    i + a.length ≤ src.length := by
  have := congrArg List.length h
  simp at this; omega

theorem slice_eq {src : Str} {i : Nat} {a b : Str} (h : src.drop i = a ++ b) (hi : i ≤ src.length) :
    slice src i (i + a.length) = .ok a := by
  unfold slice
  rw [if_pos ⟨by omega, drop_le h hi⟩, h]; simp

theorem peek_nil {src : Str} {i : Nat} (h : src.drop i = []) : peek src i = .ok 0#8 := by
  unfold peek; rw [if_neg (drop_nil h)]
theorem peek_cons {src : Str} {i : Nat} {c : Byte} {t : Str} (h : src.drop i = c :: t) : peek src i = .ok c := by
  unfold peek; rw [if_pos (drop_cons h).1, rd_cons h]

/-! ### Lines -/

/-- Line and index of the last newline after the bytes `t`, the first of which has index `i`. -/
def adv : Str → Nat → Nat × Int → Nat × Int
  | [], _, s => s
  | b :: t, i, s => adv t (i + 1) (if b = newline then (s.1 + 1, (i : Int)) else s)

theorem adv_append (a b : Str) (i : Nat) (s : Nat × Int) : adv (a ++ b) i s = adv b (i + a.length) (adv a i s) := by
  induction a generalizing i s with
  | nil => simp [adv]
  | cons x a ih => simp only [List.cons_append, adv, ih, List.length_cons]; congr 1; omega

theorem adv_none (t : Str) (h : newline ∉ t) (i : Nat) (s : Nat × Int) : adv t i s = s := by
  induction t generalizing i s with
  | nil => rfl
  | cons x t ih =>
    simp only [List.mem_cons, not_or] at h
    rw [adv, if_neg (fun e => h.1 e.symm), ih h.2]

/-! ### Identifiers, comments -/

theorem idLoop_eq (src t rest : Str) (idx : Nat) (h : src.drop idx = t ++ rest) (ht : ∀ b ∈ t, idChar b = true)
    (hr : ∀ b u, rest = b :: u → idChar b = false) : idLoop src idx = .ok (idx + t.length) := by
  induction t generalizing idx with
  | nil =>
    unfold idLoop
    cases rest with
    | nil => rw [if_neg (drop_nil h)]; rfl
    | cons b u =>
      have h' : src.drop idx = b :: u := by simpa using h
      rw [if_pos (drop_cons h').1, rd_cons h']
      simp [bind, Except.bind, hr b u rfl]
  | cons b t ih =>
    have h' : src.drop idx = b :: (t ++ rest) := by simpa using h
    unfold idLoop
    rw [if_pos (drop_cons h').1, rd_cons h']
    simp only [bind, Except.bind, ht b (by simp), if_true]
    rw [ih (idx + 1) (drop_cons h').2.2 (fun b hb => ht b (by simp [hb]))]
    simp; omega

theorem lineLoop_eq (src body rest : Str) (closed : Bool) (idx : Nat) (s : Nat × Int)
    (h : src.drop idx = body ++ ((if closed then [newline] else []) ++ rest)) (hb : newline ∉ body)
    (hc : closed = false → rest = []) :
    lineLoop src idx s.1 s.2 =
      .ok (idx + (body ++ if closed then [newline] else []).length, adv (body ++ if closed then [newline] else []) idx s) := by
  induction body generalizing idx with
  | nil =>
    unfold lineLoop
    cases closed with
    | false => rw [hc rfl] at h; rw [if_neg (drop_nil (by simpa using h))]; simp [adv]
    | true =>
      have h' : src.drop idx = newline :: rest := by simpa using h
      rw [if_pos (drop_cons h').1, rd_cons h']
      simp [bind, Except.bind, newline, adv]
  | cons b body ih =>
    simp only [List.mem_cons, not_or] at hb
    have h' : src.drop idx = b :: (body ++ ((if closed then [newline] else []) ++ rest)) := by simpa using h
    unfold lineLoop
    rw [if_pos (drop_cons h').1, rd_cons h']
    have hne : ¬ b = 0x0a#8 := fun e => hb.1 e.symm
    simp only [bind, Except.bind, if_neg hne]
    rw [ih (idx + 1) (drop_cons h').2.2 hb.2]
    simp only [List.cons_append, adv, List.length_cons]
    rw [if_neg (show ¬ b = newline from hne)]
    congr 2; omega

theorem blockLoop_eq (src body rest : Str) (closed : Bool) (idx : Nat) (s : Nat × Int)
    (h : src.drop idx = body ++ ((if closed then str "*/" else []) ++ rest))
    (hb : ∀ i < body.length, ¬ str "*/" <+: (body ++ if closed then str "*/" else []).drop i)
    (hc : closed = false → rest = []) :
    blockLoop src idx s.1 s.2 =
      .ok (idx + (body ++ if closed then str "*/" else []).length, adv (body ++ if closed then str "*/" else []) idx s) := by
  induction body generalizing idx s with
  | nil =>
    unfold blockLoop
    cases closed with
    | false => rw [hc rfl] at h; rw [if_neg (drop_nil (by simpa using h))]; simp [adv]
    | true =>
      have h' : src.drop idx = ch '*' :: (ch '/' :: rest) := by simpa [str] using h
      have h2 := (drop_cons h').2.2
      rw [if_pos (drop_cons h').1, rd_cons h']
      simp only [bind, Except.bind]
      rw [if_neg (by decide), if_pos ⟨trivial, (drop_cons h2).1⟩, rd_cons h2]
      rw [adv_none _ (by decide)]
      simp [str]
  | cons b body ih =>
    have h' : src.drop idx = b :: (body ++ ((if closed then str "*/" else []) ++ rest)) := by simpa using h
    have hb' : ∀ i < body.length, ¬ str "*/" <+: (body ++ if closed then str "*/" else []).drop i := by
      intro i hi
      have := hb (i + 1) (by simp; omega)
      simpa using this
    have htl := (drop_cons h').2.2
    unfold blockLoop
    rw [if_pos (drop_cons h').1, rd_cons h']
    simp only [bind, Except.bind]
    by_cases hn : b = 0x0a#8
    · rw [if_pos hn]
      have := ih (idx + 1) (s.1 + 1, (idx : Int)) htl hb'
      rw [this]
      simp only [List.cons_append, adv, List.length_cons]
      rw [if_pos (show b = newline from hn)]
      congr 2; omega
    · rw [if_neg hn]
      have hrec := ih (idx + 1) s htl hb'
      have hgoal : ∀ x, x = blockLoop src (idx + 1) s.1 s.2 → x = .ok (idx + (b :: body ++ if closed then str "*/" else []).length,
          adv (b :: body ++ if closed then str "*/" else []) idx s) := by
        intro x hx
        rw [hx, hrec]
        simp only [List.cons_append, adv, List.length_cons]
        rw [if_neg (show ¬ b = newline from hn)]
        congr 2; omega
      apply hgoal
      split_ifs with hs
      · obtain ⟨hs1, hs2⟩ := hs
        generalize hw : body ++ ((if closed then str "*/" else []) ++ rest) = w at htl
        cases w with
        | nil => exact absurd hs2 (drop_nil htl)
        | cons d w =>
          rw [rd_cons htl]
          dsimp only
          rw [if_neg]
          rintro rfl
          have hb0 := hb 0 (by simp)
          apply hb0
          subst hs1
          simp only [List.drop_zero, List.cons_append]
          have : ∃ v, body ++ (if closed then str "*/" else []) = ch '/' :: v := by
            cases body with
            | nil =>
              cases closed with
              | false => rw [hc rfl] at hw; simp at hw
              | true => simp [str] at hw; exact absurd hw.1 (by decide)
            | cons y body => simp at hw; exact ⟨_, by rw [hw.1]; rfl⟩
          obtain ⟨v, hv⟩ := this
          rw [hv]
          exact ⟨v, rfl⟩
      · rfl

/-! ### Operators -/

theorem mbops_facts : ∀ o ∈ MBOPS, 2 ≤ o.length ∧ o.length ≤ maxLen ∧ ∀ b ∈ o, OPTOKENS.contains b = true := by
  decide +kernel

theorem op_facts {o : Str} (h : Op o) : 1 ≤ o.length ∧ o.length ≤ maxLen ∧ ∀ b ∈ o, OPTOKENS.contains b = true := by
  rcases h with ⟨c, hc, rfl⟩ | h
  · refine ⟨by simp, by simp [maxLen], ?_⟩
    intro b hb; simp at hb; subst hb; simpa using hc
  · have := mbops_facts o h
    exact ⟨by omega, this.2.1, this.2.2⟩

/-- The lookahead stops at most at `stop`, sees only operator characters, and stops early only at another character. -/
theorem opLook_spec (src : Str) (stop idx : Nat) (hs : stop ≤ src.length) (hi : idx ≤ stop) :
    ∃ j, opLook src stop idx = .ok j ∧ idx ≤ j ∧ j ≤ stop ∧
      (j < stop → ∃ c, src[j]? = some c ∧ OPTOKENS.contains c = false) := by
  induction hn : stop - idx generalizing idx with
  | zero =>
    have : idx = stop := by omega
    subst this
    refine ⟨idx, ?_, by omega, by omega, by omega⟩
    unfold opLook; rw [if_neg (by omega)]
  | succ n ih =>
    have hlt : idx < src.length := by omega
    have hg : src[idx]? = some src[idx] := List.getElem?_eq_getElem hlt
    unfold opLook
    rw [if_pos (by omega)]
    unfold rd
    rw [hg]
    simp only [bind, Except.bind]
    by_cases hc : OPTOKENS.contains src[idx] = true
    · obtain ⟨j, e, h1, h2, h3⟩ := ih (idx + 1) (by omega) (by omega)
      rw [if_neg (by rw [hc]; decide), e]
      exact ⟨j, rfl, by omega, h2, h3⟩
    · rw [if_pos (by simp_all)]
      exact ⟨idx, rfl, by omega, by omega, fun _ => ⟨_, hg, by simpa using hc⟩⟩

theorem opShrink_eq (src s rest : Str) (idx0 n : Nat) (h : src.drop idx0 = s ++ rest) (hs : Op s)
    (hn : s.length ≤ n) (hb : idx0 + n ≤ src.length)
    (hlong : ∀ o, Op o → o <+: s ++ rest → o.length ≤ s.length) : opShrink src idx0 n = .ok s := by
  induction n with
  | zero => have := op_facts hs; omega
  | succ n ih =>
    unfold opShrink
    have hsl : slice src idx0 (idx0 + (n + 1)) = .ok ((s ++ rest).take (n + 1)) := by
      unfold slice; rw [if_pos ⟨by omega, hb⟩, h]; congr 2; omega
    rw [hsl]
    simp only [bind, Except.bind]
    have hlen : (s ++ rest).length = src.length - idx0 := by rw [← h]; simp
    have htl : ((s ++ rest).take (n + 1)).length = n + 1 := by rw [List.length_take]; omega
    by_cases hk : s.length = n + 1
    · have : (s ++ rest).take (n + 1) = s := by rw [← hk]; simp
      rw [this]
      rw [if_pos]
      rcases hs with ⟨c, hc, rfl⟩ | hs
      · simp
      · simp [hs]
    · rw [if_neg, ih (by omega) (by omega)]
      rw [htl]
      have hf := op_facts hs
      intro hc
      simp only [Bool.or_eq_true, decide_eq_true_eq, List.contains_iff_mem] at hc
      rcases hc with hc | hc
      · omega
      · have := hlong _ (Or.inr hc) (List.take_prefix _ _)
        rw [htl] at this; omega

theorem operator_eq (src s rest : Str) (st : St) (c : Byte) (t : Str) (h : src.drop st.idx = s ++ rest)
    (hct : s ++ rest = c :: t) (hs : Op s)
    (hlong : ∀ o, Op o → o <+: s ++ rest → o.length ≤ s.length) :
    operator src c st = .ok (st.token .op s st.idx (st.idx + s.length)) := by
  have hf := op_facts hs
  have hi : st.idx < src.length := (drop_cons (h.trans hct)).1
  have hc : OPTOKENS.contains c = true := by
    cases s with
    | nil => simp at hf
    | cons x s => simp at hct; rw [← hct.1]; exact hf.2.2 x (by simp)
  unfold operator
  rw [if_pos hc]
  have hlen : (s ++ rest).length = src.length - st.idx := by rw [← h]; simp
  have hstop : ∃ stop, (if st.idx + maxLen > src.length then src.length else st.idx + maxLen) = stop ∧
      stop ≤ src.length ∧ st.idx + s.length ≤ stop ∧ stop ≤ st.idx + maxLen := by
    refine ⟨_, rfl, ?_⟩
    simp at hlen
    split_ifs <;> omega
  obtain ⟨stop, e, h1, h2, h3⟩ := hstop
  rw [e]
  obtain ⟨j, e2, j1, j2, j3⟩ := opLook_spec src stop (st.idx + 1) h1 (by omega)
  simp only [e2, bind, Except.bind]
  have hj : s.length ≤ j - st.idx := by
    by_contra hcon
    obtain ⟨d, hd, hd'⟩ := j3 (by omega)
    have : (s ++ rest)[j - st.idx]? = some d := by
      rw [← h, List.getElem?_drop]; rw [← hd]; congr 1; omega
    rw [List.getElem?_append_left (by omega)] at this
    have := hf.2.2 d (List.mem_of_getElem? this)
    rw [hd'] at this; exact absurd this (by simp)
  rw [opShrink_eq src s rest st.idx (j - st.idx) h hs hj (by omega) hlong]

/-- There is always a longest known operator. -/
theorem op_exists (r : Str) (c : Byte) (t : Str) (hr : r = c :: t) (hc : OPTOKENS.contains c = true) :
    ∃ s rest, r = s ++ rest ∧ Op s ∧ ∀ o, Op o → o <+: s ++ rest → o.length ≤ s.length := by
  classical
  have h1 : Op [c] ∧ [c] <+: r := ⟨Or.inl ⟨c, by simpa using hc, rfl⟩, ⟨t, by rw [hr]; rfl⟩⟩
  have : ∃ k, (∃ o, Op o ∧ o <+: r ∧ o.length = k) ∧ ∀ o, Op o → o <+: r → o.length ≤ k := by
    by_contra hcon
    have hall : ∀ k, ∃ o, Op o ∧ o <+: r ∧ k < o.length := by
      intro k
      induction k with
      | zero => exact ⟨[c], h1.1, h1.2, by simp⟩
      | succ k ih =>
        obtain ⟨o, ho, hp, hl⟩ := ih
        by_contra hno
        apply hcon
        refine ⟨o.length, ⟨o, ho, hp, rfl⟩, fun o' ho' hp' => ?_⟩
        by_contra hlt
        exact hno ⟨o', ho', hp', by omega⟩
    obtain ⟨o, ho, _, hl⟩ := hall maxLen
    have := (op_facts ho).2.1
    omega
  obtain ⟨k, ⟨o, ho, ⟨rest, hrest⟩, hl⟩, hmax⟩ := this
  refine ⟨o, rest, hrest.symm, ho, ?_⟩
  rw [hrest, hl]; exact hmax

end Verif.Lexer
