import Verif.Resolve
/-!
# Every file is read once, and names that differ in case only are refused: C80
-/
namespace Verif.Resolve
open Verif

/-! ## Specification -/

/-- An ASCII letter in one case or the other. -/
def SameLetter (a b : Byte) : Prop :=
  a = b ∨ (65 ≤ a.toNat ∧ a.toNat ≤ 90 ∧ b.toNat = a.toNat + 32) ∨ (65 ≤ b.toNat ∧ b.toNat ≤ 90 ∧ a.toNat = b.toNat + 32)

/-- Two paths that are the same to a file system that does not distinguish case. -/
inductive SameName : Str → Str → Prop
  | nil : SameName [] []
  | cons {a b : Byte} {p q : Str} (h : SameLetter a b) (t : SameName p q) : SameName (a :: p) (b :: q)

/-- What was accessed so far: paths with the content found, the latest first. -/
abbrev Log := List (Str × Str)

/-- One access: the log, what the disk holds now, the path; the outcome. -/
inductive Access (log : Log) (disk : Str → Except Nat Str) (p : Str) : Except FErr Str → Prop
  /-- A file that was accessed before: what was found then, whatever the disk holds now. -/
  | again (data : Str) (h : (p, data) ∈ log) : Access log disk p (.ok data)
  /-- A missing or empty file. -/
  | empty (h : ∀ d, (p, d) ∉ log) (hd : disk p = .ok []) : Access log disk p (.ok [])
  /-- A file that is read. -/
  | read (data : Str) (h : ∀ d, (p, d) ∉ log) (hd : disk p = .ok data) (hne : data ≠ [])
      (hc : ∀ q d, (q, d) ∈ log → d ≠ [] → ¬ SameName p q) : Access log disk p (.ok data)
  /-- Another file with content has the same name but for the case. -/
  | clash (data q d : Str) (h : ∀ d, (p, d) ∉ log) (hd : disk p = .ok data) (hne : data ≠ [])
      (hq : (q, d) ∈ log) (hqd : d ≠ []) (hs : SameName p q) : Access log disk p (.error .clash)
  /-- The file cannot be read. -/
  | os (e : Nat) (h : ∀ d, (p, d) ∉ log) (hd : disk p = .error e) : Access log disk p (.error (.os e))

/-- Accesses one after the other, the disk changing in between; the contents found, and the error that stopped them, if any. -/
inductive Session : Log → List ((Str → Except Nat Str) × Str) → List Str → Option FErr → Prop
  | done (log : Log) : Session log [] [] none
  | ok {log disk p data rest out err} (h : Access log disk p (.ok data)) (t : Session ((p, data) :: log) rest out err) :
      Session log ((disk, p) :: rest) (data :: out) err
  | error {log disk p e rest} (h : Access log disk p (.error e)) : Session log ((disk, p) :: rest) [] (some e)

/-! ## The model's session -/

/-- `getFile` called again and again. -/
def accesses : Map → List ((Str → Except Nat Str) × Str) → List Str × Option FErr
  | _, [] => ([], none)
  | files, (disk, p) :: rest =>
    match getFile disk files p with
    | .error e => ([], some e)
    | .ok (files, data) => (data :: (accesses files rest).1, (accesses files rest).2)

/-! ## Letters -/

theorem lower_letter (a b : Byte) :
    ((if 65 ≤ a.toNat ∧ a.toNat ≤ 90 then BitVec.ofNat 8 (a.toNat + 32) else a) =
     (if 65 ≤ b.toNat ∧ b.toNat ≤ 90 then BitVec.ofNat 8 (b.toNat + 32) else b)) ↔ SameLetter a b := by
  have ha := a.isLt
  have hb := b.isLt
  rw [← BitVec.toNat_inj]
  have h1 : ∀ x : Byte, 65 ≤ x.toNat ∧ x.toNat ≤ 90 → (BitVec.ofNat 8 (x.toNat + 32)).toNat = x.toNat + 32 := by
    intro x hx; rw [BitVec.toNat_ofNat]; omega
  unfold SameLetter
  rw [← BitVec.toNat_inj]
  by_cases h : 65 ≤ a.toNat ∧ a.toNat ≤ 90
  · rw [if_pos h, h1 a h]
    by_cases h' : 65 ≤ b.toNat ∧ b.toNat ≤ 90
    · rw [if_pos h', h1 b h']; omega
    · rw [if_neg h']; omega
  · rw [if_neg h]
    by_cases h' : 65 ≤ b.toNat ∧ b.toNat ≤ 90
    · rw [if_pos h', h1 b h']; omega
    · rw [if_neg h']; omega

theorem lower_same (p q : Str) : lower p = lower q ↔ SameName p q := by
  induction p generalizing q with
  | nil =>
    cases q with
    | nil => exact ⟨fun _ => .nil, fun _ => rfl⟩
    | cons b q => exact ⟨fun h => (by cases h), fun h => (by cases h)⟩
  | cons a p ih =>
    cases q with
    | nil => exact ⟨fun h => (by cases h), fun h => (by cases h)⟩
    | cons b q =>
      show _ :: lower p = _ :: lower q ↔ _
      rw [List.cons.injEq, lower_letter, ih]
      exact ⟨fun h => .cons h.1 h.2, fun h => (by cases h with | cons x y => exact ⟨x, y⟩)⟩

theorem lower_nul {p : Str} (h : 0#8 ∉ p) : 0#8 ∉ lower p := by
  intro hm
  obtain ⟨c, hc, e⟩ := List.mem_map.1 hm
  have hlt := c.isLt
  split at e
  · rename_i hx
    have := congrArg BitVec.toNat e
    rw [BitVec.toNat_ofNat] at this
    simp only [BitVec.toNat_ofNat] at this
    omega
  · exact h (e ▸ hc)

/-! ## The invariant -/

structure Inv (files : Map) (log : Log) : Prop where
  once : ∀ p d d', (p, d) ∈ log → (p, d') ∈ log → d = d'
  nul : ∀ p d, (p, d) ∈ log → 0#8 ∉ p ∧ d ≠ [vt]
  have_ : ∀ p d, (p, d) ∈ log → files p = some (if d = [] then [vt] else d)
  miss : ∀ p, 0#8 ∉ p → (∀ d, (p, d) ∉ log) → files p = none
  low : ∀ l, 0#8 ∉ l → (files.get (l ++ [0#8]) ≠ [] ↔ ∃ p d, (p, d) ∈ log ∧ p ≠ [] ∧ d ≠ [] ∧ lower p = l)

theorem nul_ne {p l : Str} (h : 0#8 ∉ p) : p ≠ l ++ [0#8] := by
  intro e; exact h (by rw [e]; simp)

theorem step {files : Map} {log : Log} (hi : Inv files log) (disk : Str → Except Nat Str) (p : Str) (hp : 0#8 ∉ p) (hv : disk p ≠ .ok [vt]) :
    (∃ e, getFile disk files p = .error e ∧ Access log disk p (.error e)) ∨
    (∃ files' data, getFile disk files p = .ok (files', data) ∧ Access log disk p (.ok data) ∧ Inv files' ((p, data) :: log)) := by
  by_cases hk : ∃ d, (p, d) ∈ log
  · obtain ⟨d, hd⟩ := hk
    have hf := hi.have_ p d hd
    have hdv := (hi.nul p d hd).2
    right
    refine ⟨files, d, ?_, .again d hd, ?_⟩
    · unfold getFile Map.get
      rw [hf]
      by_cases h0 : d = []
      · subst h0; rfl
      · simp only [h0, if_false, Option.getD_some, hdv, ne_eq, not_false_eq_true, if_true]
    · have hmem : ∀ (x y : Str), (x, y) ∈ (p, d) :: log ↔ (x, y) ∈ log := by
        intro x y
        constructor
        · intro h
          rcases List.mem_cons.1 h with h | h
          · rw [Prod.mk.injEq] at h; rw [h.1, h.2]; exact hd
          · exact h
        · exact List.mem_cons_of_mem _
      refine ⟨?_, ?_, ?_, ?_, ?_⟩
      · intro x a b; rw [hmem, hmem]; exact hi.once x a b
      · intro x a; rw [hmem]; exact hi.nul x a
      · intro x a; rw [hmem]; exact hi.have_ x a
      · intro x h0; simp only [hmem]; exact hi.miss x h0
      · intro l hl; simp only [hmem]; exact hi.low l hl
  · have hk' : ∀ d, (p, d) ∉ log := fun d hd => hk ⟨d, hd⟩
    have hget : files.get p = [] := by unfold Map.get; rw [hi.miss p hp hk']; rfl
    have hgf : getFile disk files p = match disk p with
        | .error e => .error (.os e)
        | .ok data => match setFile files p data with
          | .error e => .error e
          | .ok files => .ok (files, data) := by
      unfold getFile
      dsimp only
      rw [hget]; rfl
    rw [hgf]
    cases hd : disk p with
    | error e => exact .inl ⟨_, rfl, .os e hk' hd⟩
    | ok data =>
      dsimp only
      by_cases h0 : data = []
      · subst h0
        right
        refine ⟨files.set p [vt], [], rfl, .empty hk' hd, ?_, ?_, ?_, ?_, ?_⟩
        · intro x a b ha hb
          rcases List.mem_cons.1 ha with ha | ha <;> rcases List.mem_cons.1 hb with hb | hb
          · rw [Prod.mk.injEq] at ha hb; rw [ha.2, hb.2]
          · rw [Prod.mk.injEq] at ha; exact absurd (ha.1 ▸ hb) (hk' b)
          · rw [Prod.mk.injEq] at hb; exact absurd (hb.1 ▸ ha) (hk' a)
          · exact hi.once x a b ha hb
        · intro x a ha
          rcases List.mem_cons.1 ha with ha | ha
          · rw [Prod.mk.injEq] at ha; rw [ha.1, ha.2]; exact ⟨hp, by decide⟩
          · exact hi.nul x a ha
        · intro x a ha
          unfold Map.set
          rcases List.mem_cons.1 ha with ha | ha
          · rw [Prod.mk.injEq] at ha; rw [if_pos ha.1, ha.2]; rfl
          · rw [if_neg (fun e : x = p => hk' a (e ▸ ha))]; exact hi.have_ x a ha
        · intro x hx hm
          unfold Map.set
          rw [if_neg (fun e => hm [] (by rw [e]; exact List.mem_cons_self))]
          exact hi.miss x hx (fun d hd => hm d (List.mem_cons_of_mem _ hd))
        · intro l hl
          have : (files.set p [vt]).get (l ++ [0#8]) = files.get (l ++ [0#8]) := by
            unfold Map.get Map.set
            rw [if_neg (fun e => nul_ne hp e.symm)]
          rw [this, hi.low l hl]
          constructor
          · rintro ⟨q, d, a, b⟩; exact ⟨q, d, List.mem_cons_of_mem _ a, b⟩
          · rintro ⟨q, d, a, b, c⟩
            rcases List.mem_cons.1 a with a | a
            · rw [Prod.mk.injEq] at a; exact absurd a.2 c.1
            · exact ⟨q, d, a, b, c⟩
      · have hln := lower_nul hp
        by_cases hc : files.get (lower p ++ [0#8]) ≠ []
        · left
          refine ⟨.clash, ?_, ?_⟩
          · unfold setFile
            rw [if_pos h0]
            dsimp only
            rw [if_pos hc]
          · obtain ⟨q, d, a, _, c, e⟩ := (hi.low _ hln).1 hc
            exact .clash data q d hk' hd h0 a c ((lower_same p q).1 e.symm)
        · right
          refine ⟨(files.set (lower p ++ [0#8]) p).set p data, data, ?_, .read data hk' hd h0 ?_, ?_, ?_, ?_, ?_, ?_⟩
          · unfold setFile
            rw [if_pos h0]
            dsimp only
            rw [if_neg hc]
          · intro q d hq hqd hs
            apply hc
            refine (hi.low _ hln).2 ⟨q, d, hq, ?_, hqd, ((lower_same p q).2 hs).symm⟩
            rintro rfl
            cases hs
            exact hk' d hq
          · intro x a b ha hb
            rcases List.mem_cons.1 ha with ha | ha <;> rcases List.mem_cons.1 hb with hb | hb
            · rw [Prod.mk.injEq] at ha hb; rw [ha.2, hb.2]
            · rw [Prod.mk.injEq] at ha; exact absurd (ha.1 ▸ hb) (hk' b)
            · rw [Prod.mk.injEq] at hb; exact absurd (hb.1 ▸ ha) (hk' a)
            · exact hi.once x a b ha hb
          · intro x a ha
            rcases List.mem_cons.1 ha with ha | ha
            · rw [Prod.mk.injEq] at ha; rw [ha.1, ha.2]; exact ⟨hp, fun e => hv (by rw [hd, e])⟩
            · exact hi.nul x a ha
          · intro x a ha
            unfold Map.set
            rcases List.mem_cons.1 ha with ha | ha
            · rw [Prod.mk.injEq] at ha; rw [if_pos ha.1, ha.2, if_neg h0]
            · rw [if_neg (fun e : x = p => hk' a (e ▸ ha)), if_neg (nul_ne (hi.nul x a ha).1)]; exact hi.have_ x a ha
          · intro x hx hm
            unfold Map.set
            rw [if_neg (fun e => hm data (by rw [e]; exact List.mem_cons_self)), if_neg (nul_ne hx)]
            exact hi.miss x hx (fun d hd => hm d (List.mem_cons_of_mem _ hd))
          · intro l hl
            by_cases hlp : l = lower p
            · subst hlp
              have : ((files.set (lower p ++ [0#8]) p).set p data).get (lower p ++ [0#8]) = p := by
                unfold Map.get Map.set
                rw [if_neg (fun e => nul_ne hp e.symm), if_pos rfl]; rfl
              rw [this]
              constructor
              · intro h; exact ⟨p, data, List.mem_cons_self, h, h0, rfl⟩
              · rintro ⟨q, d, a, b, c, e⟩ rfl
                cases q with
                | nil => exact b rfl
                | cons => cases e
            · have : ((files.set (lower p ++ [0#8]) p).set p data).get (l ++ [0#8]) = files.get (l ++ [0#8]) := by
                unfold Map.get Map.set
                rw [if_neg (fun e => nul_ne hp e.symm), if_neg (fun e => hlp (List.append_cancel_right e))]
              rw [this, hi.low l hl]
              constructor
              · rintro ⟨q, d, a, b⟩; exact ⟨q, d, List.mem_cons_of_mem _ a, b⟩
              · rintro ⟨q, d, a, b, c, e⟩
                rcases List.mem_cons.1 a with a | a
                · rw [Prod.mk.injEq] at a; rw [a.1] at e; exact absurd e.symm hlp
                · exact ⟨q, d, a, b, c, e⟩

/-! ## The theorems -/

/-- C80.  However the disk changes between accesses, they come out as the specification says: each file is read once, the case
check is exact, and the only other errors are the ones of the operating system. -/
theorem getFile_session (l : List ((Str → Except Nat Str) × Str)) (hl : ∀ a ∈ l, 0#8 ∉ a.2 ∧ a.1 a.2 ≠ .ok [vt]) :
    Session [] l (accesses (fun _ => none) l).1 (accesses (fun _ => none) l).2 := by
  have key : ∀ (l : List ((Str → Except Nat Str) × Str)) (files : Map) (log : Log), (∀ a ∈ l, 0#8 ∉ a.2 ∧ a.1 a.2 ≠ .ok [vt]) → Inv files log →
      Session log l (accesses files l).1 (accesses files l).2 := by
    intro l
    induction l with
    | nil => intro files log _ _; exact .done log
    | cons a l ih =>
      intro files log hl hi
      obtain ⟨disk, p⟩ := a
      have ha := hl _ List.mem_cons_self
      rcases step hi disk p ha.1 ha.2 with ⟨e, h1, h2⟩ | ⟨files', data, h1, h2, h3⟩
      · have : accesses files ((disk, p) :: l) = ([], some e) := by rw [accesses, h1]
        rw [this]
        exact .error h2
      · have : accesses files ((disk, p) :: l) = (data :: (accesses files' l).1, (accesses files' l).2) := by rw [accesses, h1]
        rw [this]
        exact .ok h2 (ih files' _ (fun x hx => hl x (List.mem_cons_of_mem _ hx)) h3)
  refine key l _ [] hl ⟨?_, ?_, ?_, ?_, ?_⟩
  · intro p d d' h; cases h
  · intro p d h; cases h
  · intro p d h; cases h
  · intro p _ _; rfl
  · intro l _
    constructor
    · intro h; exact absurd rfl h
    · rintro ⟨p, d, h, _⟩; cases h

theorem once_cons {log : Log} {disk : Str → Except Nat Str} {p data : Str} (ho : ∀ p d d', (p, d) ∈ log → (p, d') ∈ log → d = d')
    (ha : Access log disk p (.ok data)) : ∀ x a b, (x, a) ∈ (p, data) :: log → (x, b) ∈ (p, data) :: log → a = b := by
  have back : ∀ d, (p, d) ∈ log → d = data := by
    intro d hd
    cases ha with
    | again _ h => exact ho p d data hd h
    | empty h => exact absurd hd (h d)
    | read _ h => exact absurd hd (h d)
  intro x a b h1 h2
  rcases List.mem_cons.1 h1 with h1 | h1 <;> rcases List.mem_cons.1 h2 with h2 | h2
  · rw [Prod.mk.injEq] at h1 h2; rw [h1.2, h2.2]
  · rw [Prod.mk.injEq] at h1; rw [h1.1] at h2; rw [h1.2, back b h2]
  · rw [Prod.mk.injEq] at h2; rw [h2.1] at h1; rw [h2.2, back a h1]
  · exact ho x a b h1 h2

/-- The specification leaves no choice. -/
theorem session_unique {l : List ((Str → Except Nat Str) × Str)} {log : Log} (ho : ∀ p d d', (p, d) ∈ log → (p, d') ∈ log → d = d')
    {out out' : List Str} {err err' : Option FErr} (h : Session log l out err) (h' : Session log l out' err') : out = out' ∧ err = err' := by
  have acc : ∀ {log : Log} {disk p r r'}, (∀ p d d', (p, d) ∈ log → (p, d') ∈ log → d = d') → Access log disk p r → Access log disk p r' → r = r' := by
    intro log disk p r r' ho h h'
    have ok_inj : ∀ {a b : Str}, disk p = .ok a → disk p = .ok b → a = b := fun h1 h2 => by rw [h1] at h2; cases h2; rfl
    cases h with
    | again d hd =>
      cases h' with
      | again d' hd' => rw [ho p d d' hd hd']
      | empty h => exact absurd hd (h d)
      | read _ h => exact absurd hd (h d)
      | clash _ _ _ h => exact absurd hd (h d)
      | os _ h => exact absurd hd (h d)
    | empty h hd =>
      cases h' with
      | again d' hd' => exact absurd hd' (h d')
      | empty => rfl
      | read d' _ hd' hne => exact absurd (ok_inj hd' hd) hne
      | clash d' _ _ _ hd' hne => exact absurd (ok_inj hd' hd) hne
      | os e _ hd' => rw [hd] at hd'; cases hd'
    | read d h hd hne hc =>
      cases h' with
      | again d' hd' => exact absurd hd' (h d')
      | empty _ hd' => exact absurd (ok_inj hd hd') hne
      | read d' _ hd' => rw [ok_inj hd hd']
      | clash d' q dq _ hd' hne' hq hqd hs => exact absurd hs (hc q dq hq hqd)
      | os e _ hd' => rw [hd] at hd'; cases hd'
    | clash d q dq h hd hne hq hqd hs =>
      cases h' with
      | again d' hd' => exact absurd hd' (h d')
      | empty _ hd' => exact absurd (ok_inj hd hd') hne
      | read d' _ hd' hne' hc => exact absurd hs (hc q dq hq hqd)
      | clash => rfl
      | os e _ hd' => rw [hd] at hd'; cases hd'
    | os e h hd =>
      cases h' with
      | again d' hd' => exact absurd hd' (h d')
      | empty _ hd' => rw [hd] at hd'; cases hd'
      | read d' _ hd' => rw [hd] at hd'; cases hd'
      | clash d' _ _ _ hd' => rw [hd] at hd'; cases hd'
      | os e' _ hd' => rw [hd] at hd'; cases hd'; rfl
  induction h generalizing out' err' with
  | done => cases h'; exact ⟨rfl, rfl⟩
  | @ok log disk p data rest out err h t ih =>
    cases h' with
    | @ok _ _ _ data' _ _ _ h2 t2 =>
      have e := acc ho h h2
      cases e
      have := ih (once_cons ho h) t2
      exact ⟨by rw [this.1], this.2⟩
    | error h2 => exact absurd (acc ho h h2) (by simp)
  | error h =>
    cases h' with
    | ok h2 => exact absurd (acc ho h h2) (by simp)
    | error h2 => have := acc ho h h2; cases this; exact ⟨rfl, rfl⟩

/-- C80, as one sees it: a build sees one version of each file. -/
theorem getFile_snapshot (l : List ((Str → Except Nat Str) × Str)) (hl : ∀ a ∈ l, 0#8 ∉ a.2 ∧ a.1 a.2 ≠ .ok [vt])
    (i j : Nat) (hi : i < (accesses (fun _ => none) l).1.length) (hj : j < (accesses (fun _ => none) l).1.length)
    (h : (l[i]?).map (·.2) = (l[j]?).map (·.2)) :
    (accesses (fun _ => none) l).1[i] = (accesses (fun _ => none) l).1[j] := by
  have key : ∀ {log l out err}, Session log l out err → ∀ (p d : Str), (p, d) ∈ log → (∀ p d d', (p, d) ∈ log → (p, d') ∈ log → d = d') →
      ∀ k, k < out.length → (l[k]?).map (·.2) = some p → out[k]? = some d := by
    intro log l out err hs
    induction hs with
    | done => intro p d _ _ k hk; cases hk
    | @ok log disk q data rest out err ha t ih =>
      intro p d hm ho k hk hp
      have ho' : ∀ x a b, (x, a) ∈ (q, data) :: log → (x, b) ∈ (q, data) :: log → a = b := once_cons ho ha
      cases k with
      | zero =>
        have e : q = p := by simpa using hp
        subst e
        rw [List.getElem?_cons_zero, ho' q data d List.mem_cons_self (List.mem_cons_of_mem _ hm)]
      | succ k =>
        rw [List.getElem?_cons_succ]
        exact ih p d (List.mem_cons_of_mem _ hm) ho' k (by simpa using hk) (by simpa using hp)
    | error => intro p d _ _ k hk; cases hk
  have two : ∀ {log l out err}, Session log l out err → (∀ p d d', (p, d) ∈ log → (p, d') ∈ log → d = d') →
      ∀ i j, i < j → j < out.length → (l[i]?).map (·.2) = (l[j]?).map (·.2) → out[i]? = out[j]? := by
    intro log l out err hs
    induction hs with
    | done => intro _ i j _ hj; cases hj
    | @ok log disk q data rest out err ha t ih =>
      intro ho i j hij hj h
      have ho' : ∀ x a b, (x, a) ∈ (q, data) :: log → (x, b) ∈ (q, data) :: log → a = b := once_cons ho ha
      cases j with
      | zero => omega
      | succ j =>
        cases i with
        | zero =>
          rw [List.getElem?_cons_zero, List.getElem?_cons_succ]
          exact (key t q data List.mem_cons_self ho' j (by simpa using hj) (by simpa using h.symm)).symm
        | succ i =>
          rw [List.getElem?_cons_succ, List.getElem?_cons_succ]
          exact ih ho' i j (by omega) (by simpa using hj) (by simpa using h)
    | error => intro _ i j _ hj; cases hj
  have hs := getFile_session l hl
  have h0 : ∀ (p d d' : Str), (p, d) ∈ ([] : Log) → (p, d') ∈ ([] : Log) → d = d' := fun _ _ _ h => by cases h
  have : (accesses (fun _ => none) l).1[i]? = (accesses (fun _ => none) l).1[j]? := by
    rcases Nat.lt_trichotomy i j with hij | rfl | hij
    · exact two hs h0 i j hij hj h
    · rfl
    · exact (two hs h0 j i hij hi h.symm).symm
  rw [List.getElem?_eq_getElem hi, List.getElem?_eq_getElem hj] at this
  exact Option.some.inj this

/-! ## A case that meets the hypotheses, and the finding -/

/-- A disk with two files that change, and another name for the first. -/
def disk1 : Str → Except Nat Str := fun p => if p = str "/a.fu" then .ok (str "one") else if p = str "/A.fu" then .ok (str "one") else .ok []
def disk2 : Str → Except Nat Str := fun p => if p = str "/a.fu" then .ok (str "two") else if p = str "/A.fu" then .ok (str "two") else .ok []

def exSession : List ((Str → Except Nat Str) × Str) :=
  [(disk1, str "/a.fu"), (disk2, str "/b.fu"), (disk2, str "/a.fu"), (disk2, str "/A.fu"), (disk2, str "/a.fu")]

example : accesses (fun _ => none) exSession = ([str "one", [], str "one"], some .clash) := by decide +kernel

example : ∀ a ∈ exSession, 0#8 ∉ a.2 ∧ a.1 a.2 ≠ .ok [vt] := by decide +kernel

/-- A file that consists of one vertical tab is found empty when it is accessed again. -/
theorem getFile_vt : (accesses (fun _ => none) [(fun _ => .ok [vt], str "/a.fu"), (fun _ => .ok [vt], str "/a.fu")]).1 = [[vt], []] := by
  decide +kernel

end Verif.Resolve
