import Verif.Exec
/-!
# Running a command and taking its output: C109
-/
namespace Verif.Exec
open Verif

/-- The system gives something of what is left each time it is asked. -/
def Prompt (os : Os) : Prop := ∀ k, 0 < os.count k

theorem loop_spec (os : Os) : ∀ (n k : Nat) (stream : Str) (v : Vec), stream.length < n →
    ∃ got out rest, loop os n k stream v v.content.length = some out ∧ stream = got ++ rest ∧ out.content = v.content ++ got ∧
      (rest = [] ∨ ∃ j, os.count j = 0) := by
  intro n
  induction n with
  | zero => intro k stream v h; omega
  | succ n ih =>
    intro k stream v h
    rw [loop]
    dsimp only
    generalize hav : ((v.content.length + v.spare.length : Int) - v.content.length) = avail
    have hav' : avail = v.spare.length := by omega
    generalize hcapa : (if avail > 0 ∧ avail.toNat > BUF_SIZE then avail.toNat else BUF_SIZE) = capa
    have hpos : 0 < capa := by
      subst hcapa
      split
      · omega
      · exact by unfold BUF_SIZE; omega
    generalize hcount : min (os.count k) (min capa stream.length) = count
    by_cases h0 : count = 0
    · rw [if_pos h0]
      refine ⟨[], v, stream, rfl, rfl, by simp, ?_⟩
      by_cases hs : stream = []
      · exact .inl hs
      · have := List.length_pos_iff.2 hs
        exact .inr ⟨k, by omega⟩
    · rw [if_neg h0]
      have hle : count ≤ stream.length := by omega
      have htl : (stream.take count).length = count := by rw [List.length_take]; omega
      by_cases hd : avail > 0 ∧ avail.toNat > BUF_SIZE
      · rw [if_pos hd]
        rw [if_pos hd] at hcapa
        have hst : store v (v.content.length + count - count) (stream.take count) =
            some (v.content ++ stream.take count ++ v.spare.drop count) := by
          unfold store
          dsimp only
          rw [if_pos (by rw [List.length_append, htl]; omega), htl, Nat.add_sub_cancel, List.take_left' rfl, ← List.drop_drop, List.drop_left' rfl]
        have hlen : (v.content ++ stream.take count).length = v.content.length + count := by rw [List.length_append, htl]
        rw [hst]
        simp only [Option.bind_eq_bind, Option.bind_some]
        rw [← hlen, List.take_left' rfl, List.drop_left' rfl]
        obtain ⟨got, out, rest, e1, e2, e3, e4⟩ := ih (k + 1) (stream.drop count) ⟨v.content ++ stream.take count, v.spare.drop count⟩
          (by rw [List.length_drop]; omega)
        refine ⟨stream.take count ++ got, out, rest, e1, ?_, ?_, e4⟩
        · rw [List.append_assoc, ← e2, List.take_append_drop]
        · rw [e3, List.append_assoc]
      · rw [if_neg hd]
        have hlen : (v.content ++ stream.take count).length = v.content.length + count := by rw [List.length_append, htl]
        rw [← hlen]
        obtain ⟨got, out, rest, e1, e2, e3, e4⟩ := ih (k + 1) (stream.drop count) ⟨v.content ++ stream.take count, os.spare k⟩
          (by rw [List.length_drop]; omega)
        refine ⟨stream.take count ++ got, out, rest, e1, ?_, ?_, e4⟩
        · rw [List.append_assoc, ← e2, List.take_append_drop]
        · rw [e3, List.append_assoc]

theorem cstr_free (cmd : Str) (h : 0#8 ∉ cmd) : cstr (cmd ++ [0#8]) = cmd := by
  unfold cstr
  induction cmd with
  | nil => rfl
  | cons c s ih =>
    have hc : (c != 0) = true := by
      rw [bne_iff_ne]; rintro rfl; exact h (by simp)
    rw [List.cons_append, List.takeWhile_cons, if_pos hc, ih (fun x => h (List.mem_cons_of_mem _ x))]

/-- **C109.** The command that is run is the one given, and all it writes is put after what the string held, in order and
whatever the pieces it comes in; the status is the system's. -/
theorem C109_all (os : Os) (hp : Prompt os) (ho : os.popen = none) (run : Str → Str) (cmd : Str) (hc : 0#8 ∉ cmd) (stdout : Vec) :
    ∃ out, out.content = stdout.content ++ run cmd ∧
      (∀ status, os.pclose = .ok status → exec os run cmd stdout = some (0, status, out)) ∧
      (∀ errno, os.pclose = .error errno → exec os run cmd stdout = some (errno, -1, out)) := by
  obtain ⟨got, out, rest, e1, e2, e3, e4⟩ := loop_spec os ((run cmd).length + 1) 0 (run cmd) stdout (by omega)
  have hr : rest = [] := e4.resolve_right (fun ⟨j, hj⟩ => by have := hp j; omega)
  rw [hr, List.append_nil] at e2
  refine ⟨out, by rw [e3, ← e2], fun status hs => ?_, fun errno he => ?_⟩
  · simp only [exec, ho, cstr_free cmd hc, e1, hs, Option.bind_eq_bind, Option.bind_some]
  · simp only [exec, ho, cstr_free cmd hc, e1, he, Option.bind_eq_bind, Option.bind_some]

/-- **C109.** Whatever the system does, nothing is written out of bounds, what the string held is left as it was, and what
is added is the beginning of what the command writes. -/
theorem C109_safe (os : Os) (run : Str → Str) (cmd : Str) (stdout : Vec) :
    ∃ err status out got, exec os run cmd stdout = some (err, status, out) ∧ out.content = stdout.content ++ got ∧
      got <+: run (cstr (cmd ++ [0#8])) ∧
      (∀ e, os.popen = some e → err = e ∧ status = -1 ∧ out = stdout) := by
  cases ho : os.popen with
  | some e =>
    refine ⟨e, -1, stdout, [], by simp only [exec, ho], by simp, List.nil_prefix, fun e' h => ?_⟩
    cases h; exact ⟨rfl, rfl, rfl⟩
  | none =>
    obtain ⟨got, out, rest, e1, e2, e3, -⟩ := loop_spec os ((run (cstr (cmd ++ [0#8]))).length + 1) 0 (run (cstr (cmd ++ [0#8]))) stdout (by omega)
    have hpre : got <+: run (cstr (cmd ++ [0#8])) := ⟨rest, e2.symm⟩
    cases hs : os.pclose with
    | ok s => exact ⟨0, s, out, got, by simp only [exec, ho, e1, hs, Option.bind_eq_bind, Option.bind_some], e3, hpre, by simp⟩
    | error s => exact ⟨s, -1, out, got, by simp only [exec, ho, e1, hs, Option.bind_eq_bind, Option.bind_some], e3, hpre, by simp⟩

/-- A read that fails is taken for the end: the rest of the output is lost, with no error. -/
theorem C109_read_error_partial (run : Str → Str) (cmd : Str) (hc : 0#8 ∉ cmd) (a b : Str) (hr : run cmd = a ++ b) (ha : a ≠ []) (hb : b ≠ [])
    (hl : a.length ≤ BUF_SIZE) (old : Str) (sp : Nat → Str) :
    ∃ out, exec ⟨none, fun k => if k = 0 then a.length else 0, .ok 0, sp⟩ run cmd ⟨old, []⟩ = some (0, 0, out) ∧ out.content = old ++ a ∧
      out.content ≠ old ++ run cmd := by
  have hal := List.length_pos_iff.2 ha
  have hbl := List.length_pos_iff.2 hb
  refine ⟨⟨old ++ a, sp 0⟩, ?_, rfl, ?_⟩
  · have hm : min a.length (min BUF_SIZE (a.length + b.length)) = a.length := by omega
    have h0 : ¬ a.length = 0 := by omega
    obtain ⟨m, hm'⟩ : ∃ m, (a ++ b).length = m + 1 := ⟨(a ++ b).length - 1, by rw [List.length_append]; omega⟩
    have hl1 : ∀ k st v s, k ≠ 0 → loop ⟨none, fun k => if k = 0 then a.length else 0, .ok 0, sp⟩ (m + 1) k st v s = some v := fun k st v s hk => by
      simp [loop, hk]
    simp only [exec, cstr_free cmd hc, hr]
    rw [hm', loop]
    simp only [List.length_nil, List.length_append, Int.natCast_zero, Int.add_zero, Int.sub_self, gt_iff_lt, Int.lt_irrefl, false_and, if_false,
      if_true, hm, h0, List.take_left' rfl]
    rw [hl1 _ _ _ _ (by omega)]
    rfl
  · rw [hr]
    intro h
    have := congrArg List.length h
    simp only [List.length_append] at this
    omega

/-- A command with a byte 0 in it is cut off there, and what comes before is run. -/
theorem C109_cut_partial (a b : Str) (ha : 0#8 ∉ a) : cstr (a ++ 0#8 :: b ++ [0#8]) = a := by
  unfold cstr
  induction a with
  | nil => rfl
  | cons c s ih =>
    have hc : (c != 0) = true := by
      rw [bne_iff_ne]; rintro rfl; exact ha (by simp)
    rw [List.cons_append, List.cons_append, List.takeWhile_cons, if_pos hc, ih (fun x => ha (List.mem_cons_of_mem _ x))]

/-- Output in pieces of two bytes. -/
example : Prompt ⟨none, fun _ => 2, .ok 256, fun _ => []⟩ ∧
    exec ⟨none, fun _ => 2, .ok 256, fun _ => []⟩ (fun c => c ++ c) (str "abc") ⟨str ">", []⟩ = some (0, 256, ⟨str ">abcabc", []⟩) :=
  ⟨fun _ => Nat.zero_lt_two, by decide +kernel⟩

end Verif.Exec
