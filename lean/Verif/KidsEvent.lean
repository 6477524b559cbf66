import Verif.KidsBad
/-! # What an event of a child does, in calm runs -/
namespace Verif.Kids
open Verif.Ev (Owner Ep Reg EAGAIN)

variable {dbg : Bool}

/-- **C90** The first event of a batch of a calm run is of a descriptor of a child that is there. When it is the child's pid
descriptor, the end of this child is announced, with the code `waitpid` gave. When it is one of its pipes: if something can be read or
written, the first that happens is that the program is told so, for this child and this pipe; if the other side hung up, the pipe
is closed. Missing: the later events of a batch, whose descriptor the program may have closed while handling the earlier
ones; the runs that are not calm. -/
theorem first_event_partial {s s' : St} (h : CalmReach dbg s) (he : s.ended = false) (n : Nat) (ev : Ep)
    (more : List (Nat × Ep)) (hreg : ∃ r, s.reg n = some r)
    (herr : ∀ e ∈ (n, ev) :: more, e.2.err = false)
    (hcalm : (deliver s ((n, ev) :: more)).pending.Pairwise (fun p q => ¬ About p q))
    (c : Choice) (hc : ∀ b e n, Call.read b e n ∈ c.calls → e = 0 ∨ e = EAGAIN)
    (hs : handle dbg (deliver s ((n, ev) :: more)) c = .ok s') :
    ∃ v, Reads s.trace v ∧ ∃ pid k ts, v.pipe n = some (pid, k) ∧ v.kid pid = true ∧ s'.trace = s.trace ++ ts ∧
      (k = 0 → Obs.closed pid c.wait ∈ ts) ∧
      (k ≠ 0 → (ev.inn || ev.out) = true → ∃ w o e, ts.head? = some (Obs.event pid w o e) ∧
        (k = 1 → w = true) ∧ (k = 2 → o = true) ∧ (k = 3 → e = true)) ∧
      (k ≠ 0 → (ev.hup || ev.rdhup) = true → Obs.close n ∈ ts) := by
  rcases h.inv with ⟨_, lp, v, recs, i⟩ | ⟨he', _⟩
  · have i1 := i.deliver _ herr hcalm
    obtain ⟨s1, v1, c1, a1, a2, _, _, a5⟩ := i1.handle c hc
    rw [hs] at a1
    injection a1 with a1
    subst a1
    obtain ⟨g, hg⟩ := hreg
    have hp : (deliver s ((n, ev) :: more)).pending = (g.ud, ev) :: (more.filterMap fun e => (s.reg e.1).map fun r => (r.ud, e.2)) := by
      unfold deliver
      rw [List.filterMap_cons]
      simp [hg]
    obtain ⟨t, r, k, ts, b1, b2, b3, b4, b5, b6⟩ := a5 _ _ _ hp
    obtain ⟨hn, t', r', k', d1, d2, d3, d4⟩ := i.kin.reg _ _ hg
    have hu := ud_parts (i.kin.slot_small b1).2 b2
    have hu' := ud_parts (i.kin.slot_small d1).2 d2
    rw [← b3] at hu
    rw [← d4] at hu'
    have ht : t = t' := hu.2.symm.trans hu'.2
    subst ht
    rw [b1] at d1
    injection d1 with d1
    subst d1
    have hk : k = k' := by
      have hh := hu.1.symm.trans hu'.1
      injection hh with hh
      have e1 : k = 0 ∨ k = 1 ∨ k = 2 ∨ k = 3 := by omega
      have e2 : k' = 0 ∨ k' = 1 ∨ k' = 2 ∨ k' = 3 := by omega
      rcases e1 with rfl | rfl | rfl | rfl <;> rcases e2 with rfl | rfl | rfl | rfl <;> first | rfl | (exfalso; revert hh; decide)
    subst hk
    refine ⟨v, i.base.reads, r.pid, k, ts, (i.kin.vpipe _ _ _).2 ⟨hn, d2, t, r, b1, rfl, d3⟩, (i.kin.vkid _).2 ⟨t, r, b1, rfl⟩, b4, b5, ?_, ?_⟩
    · intro hk hev
      obtain ⟨j, rfl⟩ : ∃ j, k = j + 1 := ⟨k - 1, by omega⟩
      obtain ⟨f, f1, f2⟩ := (b6 j rfl).1 hev
      refine ⟨f 0, f 1, f 2, f2, ?_, ?_, ?_⟩ <;> intro hj
      · obtain rfl : j = 0 := by omega
        exact f1
      · obtain rfl : j = 1 := by omega
        exact f1
      · obtain rfl : j = 2 := by omega
        exact f1
    · intro hk hev
      obtain ⟨j, rfl⟩ : ∃ j, k = j + 1 := ⟨k - 1, by omega⟩
      have := (b6 j rfl).2 hev (by rw [d3]; exact hn)
      rwa [d3] at this
  · rw [he] at he'; cases he'

/-- A case with the theorem's hypotheses: child 100 writes and hangs up; the pipe is reported, then closed. -/
example (dbg : Bool) : ∃ s', CalmReach dbg (one dbg) ∧ (one dbg).ended = false ∧ (∃ r, (one dbg).reg 4 = some r) ∧
    (deliver (one dbg) [(4, { inn := true, hup := true })]).pending.Pairwise (fun p q => ¬ About p q) ∧
    handle dbg (deliver (one dbg) [(4, { inn := true, hup := true })]) ⟨[.read false 0 10], 0, [], []⟩ = .ok s' ∧
    s'.trace = (one dbg).trace ++ [.event 100 false true false, .read 100 1 4, .close 4] := by
  have hp : (deliver (one dbg) [(4, { inn := true, hup := true })]).pending = [(udOf 1 2, { inn := true, hup := true })] := by
    cases dbg <;> rfl
  cases dbg
  · exact ⟨_, one_calm _, rfl, ⟨_, rfl⟩, (by rw [hp]; exact List.pairwise_singleton ..), rfl, rfl⟩
  · exact ⟨_, one_calm _, rfl, ⟨_, rfl⟩, (by rw [hp]; exact List.pairwise_singleton ..), rfl, rfl⟩

end Verif.Kids
