import Verif.Spawn
/-! # C88: starting a child process -/
namespace Verif.Spawn

/-! ## Specification -/

/-- The descriptors a run of calls has opened and not closed, if it closes only what it has opened, once, and is never
given one it already has. -/
def track : List Obs → List Nat → Option (List Nat)
  | [], l => some l
  | .create fd :: t, l => if fd ∈ l then none else track t (fd :: l)
  | .close fd :: t, l => if fd ∈ l then track t (l.erase fd) else none

/-- The descriptors a child record holds. -/
def Child.ends (c : Child) : List Nat := [c.inFd, c.outFd, c.errFd].filter (· != 0)

/-- From `s0` to `s`, exactly the descriptors `l` were opened and left open, and nothing else changed. -/
structure Left (s0 s : St) (l : List Nat) : Prop where
  tracked : ∃ tr l', s.trace = s0.trace ++ tr ∧ track tr [] = some l' ∧ l'.Perm l
  opened : ∀ n, n ∈ s.opened ↔ n ∈ s0.opened ∨ n ∈ l
  fresh : ∀ n ∈ l, n ∉ s0.opened
  nodup : l.Nodup

/-! ## Lemmas -/

theorem track_append (t u : List Obs) (l : List Nat) : track (t ++ u) l = (track t l).bind (track u) := by
  induction t generalizing l with
  | nil => rfl
  | cons o t ih =>
    cases o with
    | create fd =>
      simp only [List.cons_append, track]
      split
      · rfl
      · exact ih _
    | close fd =>
      simp only [List.cons_append, track]
      split
      · exact ih _
      · rfl

/-- `Left`, and no descriptor is listed twice. -/
structure Own (s0 s : St) (l : List Nat) : Prop extends Left s0 s l where
  once : s.opened.Nodup

theorem Own.start (s : St) (h : s.opened.Nodup) : Own s s [] :=
  ⟨⟨⟨[], [], by simp, rfl, List.Perm.refl _⟩, by simp, by simp, List.nodup_nil⟩, h⟩

theorem Own.perm {s0 s : St} {l l' : List Nat} (h : Own s0 s l) (p : l.Perm l') : Own s0 s l' := by
  obtain ⟨⟨⟨tr, k, e, t, q⟩, o, f, n⟩, d⟩ := h
  exact ⟨⟨⟨tr, k, e, t, q.trans p⟩, fun m => by rw [o m, p.mem_iff], fun m hm => f m (p.mem_iff.2 hm), p.nodup_iff.1 n⟩, d⟩

theorem Own.create {s0 s : St} {l : List Nat} {fd : Nat} (h : Own s0 s l) (hf : fd ∉ s.opened) :
    Own s0 { opened := fd :: s.opened, trace := s.trace ++ [.create fd] } (fd :: l) := by
  obtain ⟨⟨⟨tr, k, e, t, q⟩, o, f, n⟩, d⟩ := h
  have hl : fd ∉ l := fun hc => hf ((o fd).2 (.inr hc))
  have hs : fd ∉ s0.opened := fun hc => hf ((o fd).2 (.inl hc))
  refine ⟨⟨⟨tr ++ [.create fd], fd :: k, ?_, ?_, q.cons fd⟩, ?_, ?_, List.nodup_cons.2 ⟨hl, n⟩⟩, List.nodup_cons.2 ⟨hf, d⟩⟩
  · rw [e, List.append_assoc]
  · rw [track_append, t]
    show track [.create fd] k = _
    rw [track, if_neg (fun hc => hl (q.mem_iff.1 hc)), track]
  · intro m
    simp only [List.mem_cons, o m]
    constructor
    · rintro (a | a | a)
      · exact .inr (.inl a)
      · exact .inl a
      · exact .inr (.inr a)
    · rintro (a | a | a)
      · exact .inr (.inl a)
      · exact .inl a
      · exact .inr (.inr a)
  · intro m hm
    rcases List.mem_cons.1 hm with rfl | hm
    · exact hs
    · exact f m hm

theorem Own.closeOne {s0 s : St} {l : List Nat} {fd : Nat} (h : Own s0 s (fd :: l)) (h0 : fd ≠ 0) :
    ∃ s', Spawn.closeOne s fd = .ok s' ∧ Own s0 s' l := by
  obtain ⟨⟨⟨tr, k, e, t, q⟩, o, f, n⟩, d⟩ := h
  have n' := List.nodup_cons.1 n
  refine ⟨_, by rw [Spawn.closeOne, if_pos h0], ⟨⟨tr ++ [.close fd], k.erase fd, ?_, ?_, ?_⟩, ?_, ?_, n'.2⟩, d.erase _⟩
  · show s.trace ++ _ = _
    rw [e, List.append_assoc]
  · rw [track_append, t]
    show track [.close fd] k = _
    rw [track, if_pos (q.mem_iff.2 (by simp)), track]
  · have := q.erase fd
    rwa [List.erase_cons_head] at this
  · intro m
    show m ∈ s.opened.erase fd ↔ _
    rw [d.mem_erase_iff, o m]
    constructor
    · rintro ⟨hm, a | a⟩
      · exact .inl a
      · exact .inr ((List.mem_cons.1 a).resolve_left hm)
    · rintro (a | a)
      · exact ⟨fun hc => f fd (by simp) (hc ▸ a), .inl a⟩
      · exact ⟨fun hc => n'.1 (hc ▸ a), .inr (by simp [a])⟩
  · intro m hm
    exact f m (by simp [hm])

/-- The ends of a pipe, if there is one. -/
def both (m : Mode) (p : Pipe) : List Nat := if m = .pipe then [p.r, p.w] else []
/-- One end of a pipe, if there is one. -/
def one (m : Mode) (fd : Nat) : List Nat := if m = .pipe then [fd] else []
/-- The pipe is there exactly if asked for. -/
def Made (m : Mode) (p : Pipe) : Prop := if m = .pipe then p.r ≠ 0 ∧ p.w ≠ 0 ∧ p.r ≠ p.w else p = {}

theorem mayPipe_spec {s0 s : St} {l : List Nat} (h : Own s0 s l) (h0 : 0 ∈ s0.opened) (m : Mode)
    (a : Except Errno (Nat × Nat)) :
    ∃ s' e p, mayPipe s m a = (s', e, p) ∧ ((e ≠ 0 ∧ s' = s) ∨ (e = 0 ∧ Made m p ∧ Own s0 s' (both m p ++ l) ∧
        (m = .pipe → a = .ok (p.r, p.w)))) := by
  unfold mayPipe
  by_cases hm : m = .pipe
  · rw [if_pos hm]
    cases a with
    | error e => exact ⟨_, _, _, rfl, .inl ⟨by split <;> simp_all [EMFILE], rfl⟩⟩
    | ok rw_ =>
      obtain ⟨r, w⟩ := rw_
      rw [pipe]
      by_cases hc : r ∉ s.opened ∧ w ∉ s.opened ∧ r ≠ w
      · rw [if_pos hc]
        refine ⟨_, _, _, rfl, .inr ⟨rfl, ?_, ?_, fun _ => rfl⟩⟩
        · have z : 0 ∈ s.opened := (h.opened 0).2 (.inl h0)
          rw [Made, if_pos hm]
          exact ⟨fun hz => hc.1 (by have hz : r = 0 := hz; rw [hz]; exact z),
            fun hz => hc.2.1 (by have hz : w = 0 := hz; rw [hz]; exact z), hc.2.2⟩
        · have h1 := (h.create hc.1).create (fd := w) (by
            show w ∉ r :: s.opened
            simp only [List.mem_cons, not_or]
            exact ⟨fun e => hc.2.2 e.symm, hc.2.1⟩)
          rw [both, if_pos hm]
          have h2 := h1.perm (List.Perm.swap r w l)
          show Own s0 ⟨w :: r :: s.opened, s.trace ++ [.create r, .create w]⟩ _
          have e2 : s.trace ++ [.create r] ++ [.create w] = s.trace ++ [Obs.create r, .create w] := by simp
          dsimp only at h2
          rw [e2] at h2
          exact h2
      · rw [if_neg hc]
        exact ⟨_, _, _, rfl, .inl ⟨by simp [EMFILE], rfl⟩⟩
  · rw [if_neg hm]
    exact ⟨_, _, _, rfl, .inr ⟨rfl, by rw [Made, if_neg hm], by rw [both, if_neg hm]; exact h, fun h => absurd h hm⟩⟩

theorem dropPipe_spec {s0 s : St} {a b : List Nat} {m : Mode} {p : Pipe} (h : Own s0 s (a ++ (both m p ++ b)))
    (hp : Made m p) : ∃ s', dropPipe s m p = .ok s' ∧ Own s0 s' (a ++ b) := by
  unfold dropPipe
  unfold Made at hp
  unfold both at h
  by_cases hm : m = .pipe
  · rw [if_pos hm] at hp h ⊢
    have h1 := h.perm (l' := p.r :: (a ++ (p.w :: b))) (by simp only [List.cons_append, List.nil_append]; exact List.perm_middle)
    obtain ⟨s1, e1, o1⟩ := h1.closeOne hp.1
    obtain ⟨s2, e2, o2⟩ := (o1.perm (l' := p.w :: (a ++ b)) List.perm_middle).closeOne hp.2.1
    exact ⟨s2, by rw [closeBoth, e1]; exact e2, o2⟩
  · rw [if_neg hm] at h ⊢
    exact ⟨s, rfl, h⟩

theorem dropW_spec {s0 s : St} {a b : List Nat} {m : Mode} {p : Pipe} (h : Own s0 s (a ++ (both m p ++ b)))
    (hp : Made m p) : ∃ s', dropEnd s m p.w = .ok s' ∧ Own s0 s' (a ++ (one m p.r ++ b)) := by
  unfold dropEnd
  unfold Made at hp
  unfold both at h
  unfold one
  by_cases hm : m = .pipe
  · rw [if_pos hm] at hp h ⊢
    rw [if_pos hm]
    have h1 := h.perm (l' := p.w :: (a ++ (p.r :: b))) (by
      simp only [List.cons_append, List.nil_append]
      exact ((List.Perm.swap p.w p.r b).append_left a).trans List.perm_middle)
    exact h1.closeOne hp.2.1
  · rw [if_neg hm] at h ⊢
    rw [if_neg hm]
    exact ⟨s, rfl, h⟩

theorem dropR_spec {s0 s : St} {a b : List Nat} {m : Mode} {p : Pipe} (h : Own s0 s (a ++ (both m p ++ b)))
    (hp : Made m p) : ∃ s', dropEnd s m p.r = .ok s' ∧ Own s0 s' (a ++ (one m p.w ++ b)) := by
  unfold dropEnd
  unfold Made at hp
  unfold both at h
  unfold one
  by_cases hm : m = .pipe
  · rw [if_pos hm] at hp h ⊢
    rw [if_pos hm]
    have h1 := h.perm (l' := p.r :: (a ++ (p.w :: b))) (by
      simp only [List.cons_append, List.nil_append]
      exact List.perm_middle)
    exact h1.closeOne hp.1
  · rw [if_neg hm] at h ⊢
    rw [if_neg hm]
    exact ⟨s, rfl, h⟩

theorem one_filter {m : Mode} {fd : Nat} (h : if m = .pipe then fd ≠ 0 else fd = 0) : one m fd = [fd].filter (· != 0) := by
  unfold one
  by_cases hm : m = .pipe
  · rw [if_pos hm] at h ⊢; simp [h]
  · rw [if_neg hm] at h ⊢; simp [h]

theorem Made.r {m : Mode} {p : Pipe} (h : Made m p) : if m = .pipe then p.r ≠ 0 else p.r = 0 := by
  unfold Made at h
  by_cases hm : m = .pipe
  · rw [if_pos hm] at h ⊢; exact h.1
  · rw [if_neg hm] at h ⊢; rw [h]

theorem Made.w {m : Mode} {p : Pipe} (h : Made m p) : if m = .pipe then p.w ≠ 0 else p.w = 0 := by
  unfold Made at h
  by_cases hm : m = .pipe
  · rw [if_pos hm] at h ⊢; exact h.2.1
  · rw [if_neg hm] at h ⊢; rw [h]

theorem own_iff {m : Mode} {fd : Nat} (h : if m = .pipe then fd ≠ 0 else fd = 0) : fd ≠ 0 ↔ m = .pipe := by
  by_cases hm : m = .pipe
  · rw [if_pos hm] at h; simp [h, hm]
  · rw [if_neg hm] at h; simp [h, hm]

/-! ## Theorems -/

/-- **C88** Whatever the operating system answers: no assertion fails (given that descriptor 0 is open); after an error
nothing is left open and no child is reported; otherwise exactly the parent's ends of the pipes asked for are left open, in
the child record, one exactly for each `Pipe`, and each is the parent's end of the pipe made for that stream. Only descriptors opened here are closed, each once. -/
theorem spawn_descriptors (s : St) (hn : s.opened.Nodup) (h0 : 0 ∈ s.opened) (outM errM inM : Mode) (a : Answers) :
    ∃ s' e c, spawn s outM errM inM a = .ok (s', e, c) ∧ Left s s' c.ends ∧ s'.opened.Nodup ∧ (e ≠ 0 → c = {}) ∧
      (e = 0 → (c.outFd ≠ 0 ↔ outM = .pipe) ∧ (c.errFd ≠ 0 ↔ errM = .pipe) ∧ (c.inFd ≠ 0 ↔ inM = .pipe) ∧
        (outM = .pipe → ∃ w, a.out = .ok (c.outFd, w)) ∧ (errM = .pipe → ∃ w, a.err = .ok (c.errFd, w)) ∧
        (inM = .pipe → ∃ r, a.inp = .ok (r, c.inFd))) := by
  have fin : ∀ {s' : St} {e : Errno}, e ≠ 0 → Own s s' [] → ∀ (r : R (St × Errno × Child)), r = .ok (s', e, {}) →
      ∃ s' e c, r = .ok (s', e, c) ∧ Left s s' c.ends ∧ s'.opened.Nodup ∧ (e ≠ 0 → c = {}) ∧
      (e = 0 → (c.outFd ≠ 0 ↔ outM = .pipe) ∧ (c.errFd ≠ 0 ↔ errM = .pipe) ∧ (c.inFd ≠ 0 ↔ inM = .pipe) ∧
        (outM = .pipe → ∃ w, a.out = .ok (c.outFd, w)) ∧ (errM = .pipe → ∃ w, a.err = .ok (c.errFd, w)) ∧
        (inM = .pipe → ∃ r, a.inp = .ok (r, c.inFd))) :=
    fun he o r hr => ⟨_, _, _, hr, o.toLeft, o.once, fun _ => rfl, fun h => absurd h he⟩
  unfold spawn
  obtain ⟨s1, e1, out, q1, c1⟩ := mayPipe_spec (Own.start s hn) h0 outM a.out
  rw [q1]
  dsimp only
  rcases c1 with ⟨k, rfl⟩ | ⟨rfl, m1, o1, w1⟩
  · rw [if_pos k]
    exact fin k (Own.start _ hn) _ rfl
  rw [if_neg (by simp)]
  obtain ⟨s2, e2, err, q2, c2⟩ := mayPipe_spec o1 h0 errM a.err
  rw [q2]
  dsimp only
  rcases c2 with ⟨k, rfl⟩ | ⟨rfl, m2, o2, w2⟩
  · rw [if_pos k]
    obtain ⟨s3, e3, o3⟩ := dropPipe_spec (a := []) (b := []) (by simpa using o1) m1
    exact fin k o3 _ (by rw [e3]; rfl)
  rw [if_neg (by simp)]
  obtain ⟨s3, e3, inp, q3, c3⟩ := mayPipe_spec o2 h0 inM a.inp
  rw [q3]
  dsimp only
  rcases c3 with ⟨k, rfl⟩ | ⟨rfl, m3, o3, w3⟩
  · rw [if_pos k]
    obtain ⟨s4, e4, o4⟩ := dropPipe_spec (a := both errM err) (b := []) o2 m1
    obtain ⟨s5, e5, o5⟩ := dropPipe_spec (a := []) (b := []) (by simpa using o4) m2
    exact fin k o5 _ (by rw [e4]; dsimp only [R.bind]; rw [e5])
  rw [if_neg (by simp)]
  unfold spawnEnd
  cases a.spawn with
  | error e =>
    dsimp only
    obtain ⟨s4, e4, o4⟩ := dropPipe_spec (a := both inM inp ++ both errM err) (b := []) (by simpa using o3) m1
    obtain ⟨s5, e5, o5⟩ := dropPipe_spec (a := both inM inp) (b := []) (by simpa using o4) m2
    obtain ⟨s6, e6, o6⟩ := dropPipe_spec (a := []) (b := []) (by simpa using o5) m3
    refine fin (e := if e = 0 then EMFILE else e) (by split <;> simp_all [EMFILE]) o6 _ ?_
    rw [e4]; dsimp only [R.bind]; rw [e5]; dsimp only [R.bind]; rw [e6]
  | ok pid =>
    dsimp only
    obtain ⟨s4, e4, o4⟩ := dropW_spec (a := both inM inp ++ both errM err) (b := []) (by simpa using o3) m1
    obtain ⟨s5, e5, o5⟩ := dropW_spec (a := both inM inp) (b := one outM out.r) (by simpa using o4) m2
    obtain ⟨s6, e6, o6⟩ := dropR_spec (a := []) (b := one errM err.r ++ one outM out.r) (by simpa using o5) m3
    refine ⟨s6, 0, ⟨pid, inp.w, out.r, err.r⟩, ?_, ?_, o6.once, fun h => absurd rfl h, fun _ =>
      ⟨own_iff m1.r, own_iff m2.r, own_iff m3.w, fun h => ⟨_, w1 h⟩, fun h => ⟨_, w2 h⟩, fun h => ⟨_, w3 h⟩⟩⟩
    · rw [e4]; dsimp only [R.bind]; rw [e5]; dsimp only [R.bind]; rw [e6]
    · rw [one_filter m3.w, one_filter m2.r, one_filter m1.r] at o6
      refine (o6.perm ?_).toLeft
      show List.Perm _ ([inp.w, out.r, err.r].filter _)
      simp only [List.nil_append]
      have e : ([inp.w].filter (· != 0)) ++ ([err.r].filter (· != 0) ++ [out.r].filter (· != 0))
        = [inp.w, err.r, out.r].filter (· != 0) := by
        simp only [← List.filter_append]; rfl
      rw [e]
      exact ((List.Perm.swap out.r err.r []).cons inp.w).filter _

/-- **C88** Closing the child closes exactly what it left. -/
theorem close_child (s0 s : St) (c : Child) (hn : s.opened.Nodup) (h : Left s0 s c.ends) :
    ∃ s', closeChild s c = .ok s' ∧ Left s0 s' [] := by
  have o : Own s0 s c.ends := ⟨h, hn⟩
  have may : ∀ {s : St} {fd : Nat} {a b : List Nat}, Own s0 s (a ++ ([fd].filter (· != 0) ++ b)) →
      ∃ s', (if fd ≠ 0 then closeOne s fd else R.ok s) = .ok s' ∧ Own s0 s' (a ++ b) := by
    intro s fd a b h
    by_cases hz : fd = 0
    · rw [if_neg (by simp [hz])]
      refine ⟨s, rfl, ?_⟩
      simpa [hz] using h
    · rw [if_pos hz]
      have e : [fd].filter (· != 0) = [fd] := by simp [hz]
      rw [e] at h
      exact (h.perm List.perm_middle).closeOne hz
  have e : c.ends = [c.inFd].filter (· != 0) ++ ([c.outFd].filter (· != 0) ++ [c.errFd].filter (· != 0)) := by
    simp only [← List.filter_append]; rfl
  rw [e] at o
  obtain ⟨s1, e1, o1⟩ := may (a := [c.inFd].filter (· != 0)) (b := [c.errFd].filter (· != 0)) o
  obtain ⟨s2, e2, o2⟩ := may (a := [c.inFd].filter (· != 0)) (b := []) (by simpa using o1)
  obtain ⟨s3, e3, o3⟩ := may (a := []) (b := []) (by simpa using o2)
  refine ⟨s3, ?_, o3.toLeft⟩
  unfold closeChild
  rw [e1]; dsimp only [R.bind]; rw [e2]; dsimp only [R.bind]; exact e3

end Verif.Spawn
