import Verif.VecModel
/-! Helper lemmas about slot lists (no property statements here). -/
namespace Verif.Vec
open Verif.Pack (Cfg)
variable {α : Type}

def nones (n : Nat) : Cells α := List.replicate n none

@[simp] theorem nones_length (n : Nat) : (nones n : Cells α).length = n := by simp [nones]
@[simp] theorem nones_zero : (nones 0 : Cells α) = [] := rfl
theorem nones_add (a b : Nat) : (nones (a + b) : Cells α) = nones a ++ nones b := by
  simp [nones, List.replicate_append_replicate]

theorem allNone_iff (cs : Cells α) : allNone cs = true ↔ cs = nones cs.length := by
  unfold allNone nones
  rw [List.all_eq_true]
  constructor
  · intro h
    apply List.eq_replicate_iff.2
    refine ⟨rfl, fun b hb => ?_⟩
    have := h b hb
    simpa using this
  · intro h x hx
    rw [h] at hx
    simp [List.eq_of_mem_replicate hx]

@[simp] theorem allNone_nones (n : Nat) : allNone (nones n : Cells α) = true := by
  rw [allNone_iff]; simp

@[simp] theorem allSome_append (a b : Cells α) : allSome (a ++ b) = (allSome a && allSome b) := by
  simp [allSome]
@[simp] theorem allNone_append (a b : Cells α) : allNone (a ++ b) = (allNone a && allNone b) := by
  simp [allNone]

theorem slice_append {a b c : Cells α} {i n : Nat} (hi : i = a.length) (hn : n = b.length) :
    slice (a ++ b ++ c) i n = b := by
  subst hi hn
  unfold slice
  rw [List.append_assoc, List.drop_left, List.take_left]

theorem patch_append {a b c xs : Cells α} {i : Nat} (hi : i = a.length) (hn : xs.length = b.length) :
    patch (a ++ b ++ c) i xs = a ++ xs ++ c := by
  subst hi
  unfold patch
  have h1 : (a ++ b ++ c).take a.length = a := by rw [List.append_assoc, List.take_left]
  have h2 : (a ++ b ++ c).drop (a.length + b.length) = c := by
    rw [show a.length + b.length = (a ++ b).length by simp, List.drop_left]
  rw [hn, h1, h2]

theorem patch_length {cs xs : Cells α} {i : Nat} (h : i + xs.length ≤ cs.length) :
    (patch cs i xs).length = cs.length := by
  unfold patch; simp; omega

/-- split a list at three points -/
theorem split3 (cs : Cells α) (i n : Nat) (h : i + n ≤ cs.length) :
    ∃ a b c, cs = a ++ b ++ c ∧ a.length = i ∧ b.length = n ∧ c.length = cs.length - (i + n) := by
  refine ⟨cs.take i, slice cs i n, cs.drop (i + n), ?_, ?_, ?_, ?_⟩
  · unfold slice
    rw [List.append_assoc, ← List.drop_drop, List.take_append_drop, List.take_append_drop]
  · simp; omega
  · unfold slice; simp; omega
  · simp

theorem destroyRange_ok {cfg : Cfg} {a b c : Cells α} {i n : Nat} (hi : i = a.length) (hn : n = b.length)
    (hs : cfg.trivial = false → allSome b = true) :
    ∃ b', destroyRange cfg (a ++ b ++ c) i n = .ok (a ++ b' ++ c) ∧ b'.length = n ∧
      (cfg.trivial = false → b' = nones n) ∧ (cfg.trivial = true → b' = b) := by
  unfold destroyRange
  by_cases ht : cfg.trivial = true
  · exact ⟨b, by simp [ht], hn.symm, by simp [ht], fun _ => rfl⟩
  · have ht' : cfg.trivial = false := by simpa using ht
    by_cases h0 : n = 0
    · subst h0
      have : b = [] := List.length_eq_zero_iff.1 hn.symm
      subst this
      exact ⟨[], by simp [ht'], rfl, fun _ => rfl, fun _ => rfl⟩
    · refine ⟨nones n, ?_, by simp, fun _ => rfl, by simp [ht']⟩
      rw [if_neg ht, if_neg h0, slice_append hi hn, hs ht', patch_append hi (by simp [hn])]
      rw [if_pos]
      · rfl
      · simp; omega

/-- The effect of keeping the storage: the deleted ranges are destroyed and the middle moves. -/
theorem hold_cells {cfg : Cfg} {A D B P R : Cells α} {idx del ins pop push oldSize : Nat} (kind : Kind)
    (hk : kind ≠ .clear)
    (hA : A.length = idx) (hD : D.length = del) (hP : P.length = pop)
    (hsz : oldSize = idx + del + B.length + pop)
    (hcap : idx + ins + B.length + push ≤ (A ++ D ++ B ++ P ++ R).length)
    (hD' : cfg.trivial = false → allSome D = true) (hP' : cfg.trivial = false → allSome P = true)
    (hR' : cfg.trivial = false → allNone R = true) :
    ∃ cs1 g1 g2 rest,
      destroyDeleted cfg kind (A ++ D ++ B ++ P ++ R) oldSize idx del pop = .ok cs1 ∧
      memmove cfg cs1 (idx + ins) (idx + del) (oldSize - (idx + del + pop)) = .ok (A ++ g1 ++ B ++ g2 ++ rest) ∧
      g1.length = ins ∧ g2.length = push ∧
      (A ++ g1 ++ B ++ g2 ++ rest).length = (A ++ D ++ B ++ P ++ R).length ∧
      (cfg.trivial = false → allNone g1 = true ∧ allNone g2 = true ∧ allNone rest = true) := by
  have hB : oldSize - (idx + del + pop) = B.length := by omega
  unfold destroyDeleted
  rw [if_neg hk]
  obtain ⟨D', hd1, hd2, hd3, hd4⟩ := destroyRange_ok (cfg := cfg) (a := A) (b := D) (c := B ++ P ++ R)
    (i := idx) (n := del) hA.symm hD.symm hD'
  obtain ⟨P', hp1, hp2, hp3, hp4⟩ := destroyRange_ok (cfg := cfg) (a := A ++ D' ++ B) (b := P) (c := R)
    (i := oldSize - pop) (n := pop) (by simp [hA, hd2]; omega) hP.symm hP'
  refine ⟨A ++ D' ++ B ++ P' ++ R, ?_⟩
  have e1 : A ++ D ++ B ++ P ++ R = A ++ D ++ (B ++ P ++ R) := by simp
  have e2 : A ++ D' ++ (B ++ P ++ R) = A ++ D' ++ B ++ P ++ R := by simp
  have hdes : ((do let cs ← destroyRange cfg (A ++ D ++ B ++ P ++ R) idx del
                   destroyRange cfg cs (oldSize - pop) pop) : M (Cells α)) = .ok (A ++ D' ++ B ++ P' ++ R) := by
    rw [e1, hd1]
    show destroyRange cfg (A ++ D' ++ (B ++ P ++ R)) (oldSize - pop) pop = _
    rw [e2, hp1]
  rw [hdes, hB]
  have hlen : (A ++ D' ++ B ++ P' ++ R).length = (A ++ D ++ B ++ P ++ R).length := by
    simp [hd2, hD, hp2, hP]
  rw [← hlen] at hcap ⊢
  -- split the tail of the result
  have hsplit : ∀ g1 T : Cells α, g1.length = ins → (A ++ g1 ++ B ++ T).length = (A ++ D' ++ B ++ P' ++ R).length →
      ∃ g2 rest, T = g2 ++ rest ∧ g2.length = push := by
    intro g1 T hg hT
    refine ⟨T.take push, T.drop push, (List.take_append_drop _ _).symm, ?_⟩
    simp only [List.length_append, hA, hg] at hT hcap
    simp; omega
  unfold memmove
  by_cases ht : cfg.trivial = true
  · -- trivial items
    by_cases hnoop : idx + ins = idx + del ∨ B.length = 0
    · rw [if_pos hnoop]
      by_cases hid : ins = del
      · obtain ⟨g2, rest, hT, hg2⟩ := hsplit D' (P' ++ R) (by omega) (by simp)
        refine ⟨D', g2, rest, rfl, ?_, by omega, hg2, ?_, by simp [ht]⟩
        · rw [show A ++ D' ++ B ++ g2 ++ rest = A ++ D' ++ B ++ (g2 ++ rest) by simp, ← hT]; simp
        · rw [show A ++ D' ++ B ++ g2 ++ rest = A ++ D' ++ B ++ (g2 ++ rest) by simp, ← hT]; simp
      · have hB0 : B = [] := by
          rcases hnoop with h | h
          · omega
          · exact List.length_eq_zero_iff.1 h
        subst hB0
        simp only [List.append_nil, List.length_nil, Nat.add_zero] at *
        have hle : ins ≤ (D' ++ P' ++ R).length := by
          simp only [List.length_append, hA] at hcap ⊢; omega
        obtain ⟨g2, rest, hT, hg2⟩ := hsplit ((D' ++ P' ++ R).take ins) ((D' ++ P' ++ R).drop ins)
          (by rw [List.length_take]; omega)
          (by rw [List.append_assoc, List.take_append_drop]; simp)
        refine ⟨(D' ++ P' ++ R).take ins, g2, rest, trivial, ?_, by rw [List.length_take]; omega, hg2, ?_, by simp [ht]⟩
        · rw [show A ++ (D' ++ P' ++ R).take ins ++ g2 ++ rest = A ++ ((D' ++ P' ++ R).take ins ++ (g2 ++ rest)) by simp,
            ← hT, List.take_append_drop]; simp
        · rw [show A ++ (D' ++ P' ++ R).take ins ++ g2 ++ rest = A ++ ((D' ++ P' ++ R).take ins ++ (g2 ++ rest)) by simp,
            ← hT, List.take_append_drop]; simp
    · rw [if_neg hnoop]
      have hb1 : idx + ins + B.length ≤ (A ++ D' ++ B ++ P' ++ R).length := by omega
      have hb2 : idx + del + B.length ≤ (A ++ D' ++ B ++ P' ++ R).length := by
        simp only [List.length_append, hA, hd2]; omega
      rw [if_pos ⟨hb1, hb2⟩]
      have hsl : slice (A ++ D' ++ B ++ P' ++ R) (idx + del) B.length = B := by
        rw [show A ++ D' ++ B ++ P' ++ R = (A ++ D') ++ B ++ (P' ++ R) by simp]
        exact slice_append (by simp [hA, hd2]) rfl
      simp only [hsl, ht, if_true]
      obtain ⟨a, b, c, he, ha, hb, hc⟩ := split3 (A ++ D' ++ B ++ P' ++ R) (idx + ins) B.length hb1
      rw [he, patch_append ha.symm hb.symm]
      -- `a` starts with `A`
      have ha' : a = A ++ (a.drop idx) := by
        have h1 : a.take idx = A := by
          have := congrArg (List.take idx) he
          rw [List.take_append_of_le_length (l₁ := a ++ b) (by simp; omega),
            List.take_append_of_le_length (l₁ := a) (by omega)] at this
          rw [← this, show A ++ D' ++ B ++ P' ++ R = A ++ (D' ++ B ++ P' ++ R) by simp]
          rw [← hA, List.take_left]
        calc a = a.take idx ++ a.drop idx := (List.take_append_drop _ _).symm
          _ = A ++ a.drop idx := by rw [h1]
      have hgl : (a.drop idx).length = ins := by simp; omega
      obtain ⟨g2, rest, hT, hg2⟩ := hsplit (a.drop idx) c hgl (by
        rw [← ha', he]; simp [hb])
      refine ⟨a.drop idx, g2, rest, trivial, ?_, hgl, hg2, ?_, by simp⟩
      · rw [List.append_assoc (A ++ _ ++ B), ← hT, ← ha']
      · rw [List.append_assoc (A ++ _ ++ B), ← hT, ← ha']; simp [hb]
  · -- non-trivial items
    have ht' : cfg.trivial = false := by simpa using ht
    have hD'' := hd3 ht'
    have hP'' := hp3 ht'
    have hR'' : R = nones R.length := (allNone_iff R).1 (hR' ht')
    subst hD'' hP''
    generalize R.length = r at hR''
    subst hR''
    have e3 : A ++ nones del ++ B ++ nones pop ++ nones r = A ++ nones del ++ B ++ nones (pop + r) := by
      simp [nones_add]
    rw [e3] at hcap hsplit ⊢
    have hcap' : ins + push ≤ del + (pop + r) := by
      simp only [List.length_append, hA, nones_length] at hcap; omega
    have hfin : ∀ g : Nat, g = del + (pop + r) - ins - push →
        (A ++ nones ins ++ B ++ nones push ++ nones g).length = (A ++ nones del ++ B ++ nones (pop + r)).length := by
      intro g hg; simp; omega
    by_cases hnoop : idx + ins = idx + del ∨ B.length = 0
    · rw [if_pos hnoop]
      refine ⟨nones ins, nones push, nones (del + (pop + r) - ins - push), rfl, ?_, by simp, by simp, hfin _ rfl,
        by simp⟩
      congr 1
      by_cases hid : ins = del
      · subst hid
        rw [show pop + r = push + (ins + (pop + r) - ins - push) by omega, nones_add push]
        simp
      · have hB0 : B = [] := by
          rcases hnoop with h | h
          · omega
          · exact List.length_eq_zero_iff.1 h
        subst hB0
        simp only [List.append_nil]
        rw [List.append_assoc, List.append_assoc, List.append_assoc]
        congr 1
        rw [← nones_add, ← nones_add, ← nones_add]
        congr 1; omega
    · rw [if_neg hnoop]
      have hb1 : idx + ins + B.length ≤ (A ++ nones del ++ B ++ nones (pop + r)).length := by omega
      have hb2 : idx + del + B.length ≤ (A ++ nones del ++ B ++ nones (pop + r)).length := by
        simp only [List.length_append, hA, nones_length]; omega
      rw [if_pos ⟨hb1, hb2⟩]
      have hsl : slice (A ++ nones del ++ B ++ nones (pop + r)) (idx + del) B.length = B :=
        slice_append (by simp [hA]) rfl
      have hcs1 : patch (A ++ nones del ++ B ++ nones (pop + r)) (idx + del) (List.replicate B.length none)
          = A ++ nones ins ++ nones B.length ++ nones (del + (pop + r) - ins) := by
        rw [patch_append (by simp [hA]) (by simp)]
        show A ++ nones del ++ nones B.length ++ nones (pop + r) = _
        rw [List.append_assoc, List.append_assoc, List.append_assoc, List.append_assoc]
        congr 1
        rw [← nones_add, ← nones_add, ← nones_add, ← nones_add]
        congr 1; omega
      simp only [hsl, ht', Bool.false_eq_true, if_false, hcs1]
      rw [slice_append (by simp [hA]) (by simp), allNone_nones, if_pos rfl, patch_append (by simp [hA]) (by simp)]
      refine ⟨nones ins, nones push, nones (del + (pop + r) - ins - push), trivial, ?_, by simp, by simp, hfin _ rfl,
        by simp⟩
      congr 1
      rw [show del + (pop + r) - ins = push + (del + (pop + r) - ins - push) by omega, nones_add push]
      simp

theorem memcpy_ok {cfg : Cfg} {a b c d e f : Cells α} {s k n : Nat} (hs : s = a.length) (hn : n = b.length)
    (hk : k = d.length) (he : n = e.length) (hnone : cfg.trivial = false → allNone e = true) :
    ∃ b', memcpy cfg (a ++ b ++ c) s (d ++ e ++ f) k n = .ok (a ++ b' ++ c, d ++ b ++ f) ∧ b'.length = n ∧
      (cfg.trivial = false → b' = nones n) ∧ (cfg.trivial = true → b' = b) := by
  unfold memcpy
  by_cases h0 : n = 0
  · subst h0
    have : b = [] := List.length_eq_zero_iff.1 hn.symm
    have : e = [] := List.length_eq_zero_iff.1 he.symm
    subst b e
    exact ⟨[], by simp, rfl, fun _ => rfl, fun _ => rfl⟩
  · rw [if_neg h0, if_pos (by simp; omega)]
    simp only [slice_append hs hn, slice_append hk he]
    rw [patch_append hk (by omega)]
    by_cases ht : cfg.trivial = true
    · exact ⟨b, by simp [ht], hn.symm, by simp [ht], fun _ => rfl⟩
    · have ht' : cfg.trivial = false := by simpa using ht
      refine ⟨nones n, ?_, by simp, fun _ => rfl, by simp [ht']⟩
      rw [if_neg ht, hnone ht', if_pos rfl, patch_append hs (by simp [hn])]
      rfl

theorem cpyCtor_ok {cfg : Cfg} {a b c d e f : Cells α} {s k n : Nat} (hs : s = a.length) (hn : n = b.length)
    (hk : k = d.length) (he : n = e.length) (hnone : cfg.trivial = false → allNone e = true)
    (hsome : cfg.trivial = false → allSome b = true) :
    cpyCtor cfg (a ++ b ++ c) s (d ++ e ++ f) k n = .ok (d ++ b ++ f) := by
  unfold cpyCtor
  by_cases h0 : n = 0
  · subst h0
    have : b = [] := List.length_eq_zero_iff.1 hn.symm
    have : e = [] := List.length_eq_zero_iff.1 he.symm
    subst b e
    simp
  · rw [if_neg h0, if_pos (by simp; omega)]
    simp only [slice_append hs hn, slice_append hk he]
    rw [patch_append hk (by omega)]
    by_cases ht : cfg.trivial = true
    · simp [ht]
    · have ht' : cfg.trivial = false := by simpa using ht
      rw [if_neg ht, hnone ht', hsome ht']; rfl

/-- relocation into fresh storage -/
theorem relocate_cells {cfg : Cfg} {A D B T : Cells α} {idx del ins pop oldSize c : Nat}
    (hA : A.length = idx) (hD : D.length = del) (hsz : oldSize = idx + del + B.length + pop)
    (hcap : idx + ins + B.length ≤ c) :
    ∃ old', relocate cfg idx del ins pop (nones c) (A ++ D ++ B ++ T) oldSize
        = .ok (old', A ++ nones ins ++ B ++ nones (c - (idx + ins + B.length))) ∧
      old'.length = (A ++ D ++ B ++ T).length ∧
      (cfg.trivial = false → old' = nones idx ++ D ++ nones B.length ++ T) := by
  unfold relocate
  obtain ⟨A', h1, h2, h3, _⟩ := memcpy_ok (cfg := cfg) (a := []) (b := A) (c := D ++ B ++ T) (d := [])
    (e := nones idx) (f := nones (c - idx)) (s := 0) (k := 0) (n := idx) rfl hA.symm rfl (by simp) (by simp)
  have e1 : nones c = [] ++ nones idx ++ (nones (c - idx) : Cells α) := by
    rw [List.nil_append, ← nones_add]; congr 1; omega
  have e2 : A ++ D ++ B ++ T = [] ++ A ++ (D ++ B ++ T) := by simp
  rw [e1, e2, h1]
  obtain ⟨B', g1, g2, g3, _⟩ := memcpy_ok (cfg := cfg) (a := A' ++ D) (b := B) (c := T) (d := A ++ nones ins)
    (e := nones B.length) (f := nones (c - (idx + ins + B.length))) (s := idx + del) (k := idx + ins)
    (n := B.length) (by simp [h2, hD]) rfl (by simp [hA]) (by simp) (by simp)
  refine ⟨A' ++ D ++ B' ++ T, ?_, by simp [h2, hA, g2], ?_⟩
  · show memcpy cfg ([] ++ A' ++ (D ++ B ++ T)) (idx + del) ([] ++ A ++ nones (c - idx)) (idx + ins)
      (oldSize - (idx + del + pop)) = _
    rw [show oldSize - (idx + del + pop) = B.length by omega]
    rw [show [] ++ A' ++ (D ++ B ++ T) = A' ++ D ++ B ++ T by simp]
    rw [show ([] : Cells α) ++ A ++ nones (c - idx) = A ++ nones ins ++ nones B.length ++ nones (c - (idx + ins + B.length)) by
      rw [List.nil_append, List.append_assoc, List.append_assoc, ← nones_add, ← nones_add]; congr 2; omega]
    rw [g1]
  · intro ht
    rw [h3 ht, g3 ht]

/-- copy construction into fresh storage -/
theorem copy_cells {cfg : Cfg} {A D B T : Cells α} {idx del ins pop oldSize c : Nat}
    (hA : A.length = idx) (hD : D.length = del) (hsz : oldSize = idx + del + B.length + pop)
    (hcap : idx + ins + B.length ≤ c)
    (hA' : cfg.trivial = false → allSome A = true) (hB' : cfg.trivial = false → allSome B = true) :
    ((do let new ← cpyCtor cfg (A ++ D ++ B ++ T) 0 (nones c) 0 idx
         cpyCtor cfg (A ++ D ++ B ++ T) (idx + del) new (idx + ins) (oldSize - (idx + del + pop))) : M (Cells α))
      = .ok (A ++ nones ins ++ B ++ nones (c - (idx + ins + B.length))) := by
  have e1 : nones c = [] ++ nones idx ++ (nones (c - idx) : Cells α) := by
    rw [List.nil_append, ← nones_add]; congr 1; omega
  have e2 : A ++ D ++ B ++ T = [] ++ A ++ (D ++ B ++ T) := by simp
  have h1 := cpyCtor_ok (cfg := cfg) (a := []) (b := A) (c := D ++ B ++ T) (d := [])
    (e := nones idx) (f := nones (c - idx)) (s := 0) (k := 0) (n := idx) rfl hA.symm rfl (by simp) (by simp) hA'
  rw [← e2, ← e1] at h1
  rw [h1]
  show cpyCtor cfg (A ++ D ++ B ++ T) (idx + del) ([] ++ A ++ nones (c - idx)) (idx + ins)
      (oldSize - (idx + del + pop)) = _
  rw [show oldSize - (idx + del + pop) = B.length by omega]
  rw [show ([] : Cells α) ++ A ++ nones (c - idx) = A ++ nones ins ++ nones B.length ++ nones (c - (idx + ins + B.length)) by
      rw [List.nil_append, List.append_assoc, List.append_assoc, ← nones_add, ← nones_add]; congr 2; omega]
  exact cpyCtor_ok (by simp [hA, hD]) rfl (by simp [hA]) (by simp) (by simp) hB'

end Verif.Vec
