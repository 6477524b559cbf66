import Verif.VecSplice2
/-! Every single-header operation preserves the invariant and does to the items what its list counterpart does. -/
namespace Verif.Vec
open Verif.Pack (Cfg)
variable {α : Type}

/-- Either the allocator ended the process, or the operation is complete. -/
def Res (cfg : Cfg) (h : Heap α) (os : List (Hdr α)) (r : M (Heap α × Hdr α)) (xs : Cells α) : Prop :=
  r = .error .exit ∨ ∃ h' v', r = .ok (h', v') ∧ Done cfg h os h' v' xs

theorem items_length {cfg : Cfg} {h : Heap α} {v os} (hi : Inv cfg h (v :: os)) : (items h v).length = v.size := by
  have hsh := hi.1.shape v (by simp)
  obtain ⟨cs, hc, _, _⟩ := loadCells_ok hsh
  obtain ⟨R, _, hlen, _⟩ := items_spec hsh hc
  exact hlen

theorem clampIdx_le (n : Nat) (i : Int) : clampIdx n i ≤ n := by unfold clampIdx; split <;> (try split) <;> omega
theorem clampCnt_le (n : Nat) (i : Int) : clampCnt n i ≤ n := by unfold clampCnt; split <;> (try split) <;> omega

theorem split4 (xs : Cells α) (i d p : Nat) (h : i + d + p ≤ xs.length) :
    xs = xs.take i ++ (xs.drop i).take d ++ (xs.drop (i + d)).take (xs.length - i - d - p) ++ xs.drop (xs.length - p) := by
  have e1 : xs.drop i = (xs.drop i).take d ++ xs.drop (i + d) := by
    rw [← List.drop_drop]; exact (List.take_append_drop _ _).symm
  have e2 : xs.drop (i + d) = (xs.drop (i + d)).take (xs.length - i - d - p) ++ xs.drop (xs.length - p) := by
    have e3 := (List.take_append_drop (xs.length - i - d - p) (xs.drop (i + d))).symm
    rwa [List.drop_drop, show i + d + (xs.length - i - d - p) = xs.length - p by omega] at e3
  have e0 := (List.take_append_drop i xs).symm
  rw [e1, e2] at e0
  simpa only [List.append_assoc] using e0

/-- `_Splice` with raw arguments: what it keeps. -/
theorem spliceRaw_ok {cfg : Cfg} (hv : Valid cfg) {h : Heap α} {v : Hdr α} {os} {kind : Kind}
    (hi : Inv cfg h (v :: os)) (hk : kind ≠ .clear) (idx del ins pop push : Int) {i d p n m : Nat}
    (hI : i = clampIdx v.size idx) (hD : d = clampCnt (v.size - i) del) (hP : p = clampCnt (v.size - i - d) pop)
    (hn : n = posPart ins) (hm : m = posPart push)
    (hlt : (items h v).length - d - p + n + m + 1 < 2 ^ 31) :
    spliceRaw cfg kind h v idx del ins pop push = .error .exit ∨
    ∃ h' v' null, spliceRaw cfg kind h v idx del ins pop push = .ok (h', v', null) ∧
      ((null = false ∧ Opened cfg h os h' v' ((items h v).take i) (((items h v).drop (i + d)).take (v.size - i - d - p)) n m) ∨
       (null = true ∧ kind = .normal ∧ n = 0 ∧ m = 0 ∧
          Done cfg h os h' v' ((items h v).take i ++ ((items h v).drop (i + d)).take (v.size - i - d - p)))) := by
  have hlen := items_length hi
  have h1 : i ≤ v.size := hI ▸ clampIdx_le _ _
  have h2 : d ≤ v.size - i := hD ▸ clampCnt_le _ _
  have h3 : p ≤ v.size - i - d := hP ▸ clampCnt_le _ _
  have hs := split4 (items h v) i d p (by omega)
  rw [hlen] at hs hlt
  have := splice_ok hv (kind := kind) (ins := n) (push := m) hi hk hs (by simp [hlen]; omega)
  unfold spliceRaw
  simp only [← hI, ← hD, ← hP, ← hn, ← hm]
  have e1 : ((items h v).take i).length = i := by simp [hlen]; omega
  have e2 : (((items h v).drop i).take d).length = d := by simp [hlen]; omega
  have e3 : ((items h v).drop (v.size - p)).length = p := by simp [hlen]; omega
  rw [e1, e2, e3] at this
  exact this

theorem allSome_take {xs : Cells α} {i} (h : allSome xs = true) : allSome (xs.take i) = true := by
  unfold allSome at *
  rw [List.all_eq_true] at *
  exact fun x hx => h x (List.mem_of_mem_take hx)
theorem allSome_drop {xs : Cells α} {i} (h : allSome xs = true) : allSome (xs.drop i) = true := by
  unfold allSome at *
  rw [List.all_eq_true] at *
  exact fun x hx => h x (List.mem_of_mem_drop hx)

/-- Deletions only. -/
theorem spliceRaw_del {cfg : Cfg} (hv : Valid cfg) {h : Heap α} {v : Hdr α} {os}
    (hi : Inv cfg h (v :: os)) (idx del pop : Int) {i d p : Nat}
    (hI : i = clampIdx v.size idx) (hD : d = clampCnt (v.size - i) del) (hP : p = clampCnt (v.size - i - d) pop)
    (hlt : (items h v).length + 1 < 2 ^ 31) (r : M (Heap α × Hdr α))
    (hr : r = (do let (h, v, _) ← spliceRaw cfg .normal h v idx del 0 pop 0; .ok (h, v))) :
    Res cfg h os r ((items h v).take i ++ ((items h v).drop (i + d)).take (v.size - i - d - p)) := by
  subst hr
  rcases spliceRaw_ok hv hi (kind := .normal) (by simp) idx del 0 pop 0 hI hD hP rfl rfl
    (by simp only [posPart]; simp; omega) with he | ⟨h', v', null, he, ho⟩
  · left; rw [he]; rfl
  · right
    refine ⟨h', v', by rw [he]; rfl, ?_⟩
    rcases ho with ⟨_, ho⟩ | ⟨_, _, _, _, hd⟩
    · exact ho.done hi (fun ht => ⟨allSome_take (items_some hi ht), allSome_take (allSome_drop (items_some hi ht))⟩)
    · exact hd

/-- One insertion of explicit items. -/
theorem fill_ok {cfg : Cfg} {h : Heap α} {v os h' v'} {A B xs : Cells α} {null : Bool} (hi : Inv cfg h (v :: os))
    (ho : (null = false ∧ Opened cfg h os h' v' A B xs.length 0) ∨
       (null = true ∧ Kind.normal = .normal ∧ xs.length = 0 ∧ 0 = 0 ∧ Done cfg h os h' v' (A ++ B)))
    (hA : cfg.trivial = false → allSome A = true ∧ allSome B = true) (hx : cfg.trivial = false → allSome xs = true) :
    ∃ h'' v'', construct cfg h' v' null A.length xs = .ok (h'', v'') ∧ Done cfg h os h'' v'' (A ++ xs ++ B) := by
  rcases ho with ⟨rfl, ho⟩ | ⟨rfl, _, h0, _, hd⟩
  · obtain ⟨h2, v2, e, o⟩ := fill_ins ho hx
    exact ⟨h2, v2, e, o.done hi (fun ht => ⟨by simp [hx ht, (hA ht).1], (hA ht).2⟩)⟩
  · obtain rfl : xs = [] := List.length_eq_zero_iff.1 h0
    exact ⟨h', v', by simp [construct], by simpa using hd⟩

theorem push_ok {cfg : Cfg} (hv : Valid cfg) {h : Heap α} {v : Hdr α} {os} (x : α) (hi : Inv cfg h (v :: os))
    (hlt : (items h v).length + 2 < 2 ^ 31) : Res cfg h os (push cfg h v x) (items h v ++ [some x]) := by
  have hlen := items_length hi
  unfold push
  rcases spliceRaw_ok hv hi (kind := .normal) (by simp) 0 0 0 0 1 (i := 0) (d := 0) (p := 0) (n := 0) (m := 1)
    (by simp [clampIdx]) (by simp [clampCnt]) (by simp [clampCnt]) rfl rfl (by omega) with he | ⟨h', v', null, he, ho⟩
  · left; rw [he]; rfl
  · right
    rcases ho with ⟨rfl, ho⟩ | ⟨_, _, _, h0, _⟩
    · have ho' := opened_push_eq ho
      have e : (items h v).take 0 ++ ((items h v).drop (0 + 0)).take (v.size - 0 - 0 - 0) = items h v := by
        rw [← hlen]; simp
      rw [e] at ho'
      obtain ⟨h2, v2, e, o⟩ := fill_ins (xs := [some x]) ho' (by simp [allSome])
      refine ⟨h2, v2, ?_, by simpa using o.done hi (fun ht => ⟨by rw [allSome_append, items_some hi ht]; rfl, rfl⟩)⟩
      rw [he, ← hlen]; exact e
    · exact absurd h0 (by simp)

/-- insertion of a run of items at `i`, removing `d` -/
theorem spliceRaw_ins {cfg : Cfg} (hv : Valid cfg) {h : Heap α} {v : Hdr α} {os}
    (hi : Inv cfg h (v :: os)) (idx del : Int) (xs : Cells α) {d : Nat}
    (hI : 0 ≤ idx ∧ idx ≤ v.size) (hD : d = clampCnt (v.size - idx.toNat) del)
    (hx : cfg.trivial = false → allSome xs = true)
    (hlt : (items h v).length - d + xs.length + 1 < 2 ^ 31) :
    Res cfg h os (do
      let (h, v, null) ← spliceRaw cfg .normal h v idx del xs.length 0 0
      construct cfg h v null idx xs)
      ((items h v).take idx.toNat ++ xs ++ (items h v).drop (idx.toNat + d)) := by
  have hlen := items_length hi
  have hcI : idx.toNat = clampIdx v.size idx := by unfold clampIdx; split <;> (try split) <;> omega
  have hd' : d ≤ v.size - idx.toNat := hD ▸ clampCnt_le _ _
  rcases spliceRaw_ok hv hi (kind := .normal) (by simp) idx del xs.length 0 0 (p := 0) (n := xs.length) (m := 0)
    hcI hD (by simp [clampCnt]) (by simp only [posPart]; split <;> omega) rfl (by omega) with he | ⟨h', v', null, he, ho⟩
  · left; rw [he]; rfl
  · right
    obtain ⟨h2, v2, e, o⟩ := fill_ok hi ho
      (fun ht => ⟨allSome_take (items_some hi ht), allSome_take (allSome_drop (items_some hi ht))⟩) hx
    refine ⟨h2, v2, ?_, ?_⟩
    · rw [he]
      show construct cfg h' v' null idx xs = _
      rw [← e]
      congr 1
      simp only [List.length_take, hlen]
      omega
    · rwa [List.take_of_length_le (l := (items h v).drop (idx.toNat + d)) (by simp [hlen]; omega)] at o

theorem insert_ok {cfg : Cfg} (hv : Valid cfg) {h : Heap α} {v : Hdr α} {os} (i : Int) (x : α) (hi : Inv cfg h (v :: os))
    (hI : 0 ≤ i ∧ i ≤ v.size) (hlt : (items h v).length + 2 < 2 ^ 31) :
    Res cfg h os (insert cfg h v i x) ((items h v).take i.toNat ++ [some x] ++ (items h v).drop i.toNat) := by
  have := spliceRaw_ins hv hi i 0 [some x] (d := 0) hI (by simp [clampCnt]) (by simp [allSome]) (by simp; omega)
  simp only [Nat.add_zero] at this
  exact this

theorem unshift_ok {cfg : Cfg} (hv : Valid cfg) {h : Heap α} {v : Hdr α} {os} (x : α) (hi : Inv cfg h (v :: os))
    (hlt : (items h v).length + 2 < 2 ^ 31) : Res cfg h os (unshift cfg h v x) (some x :: items h v) := by
  have := insert_ok hv 0 x hi (by omega) hlt
  simp only [Int.toNat_zero, List.take_zero, List.drop_zero, List.nil_append, List.singleton_append] at this
  exact this

/-- the value of slots `resize`/`splice_empty` create -/
def blank (cfg : Cfg) (zero : α) (zf : Bool) : Option α := if cfg.trivial && !zf then none else some zero

theorem blank_some {cfg : Cfg} {zero : α} {zf} {n} (ht : cfg.trivial = false) :
    allSome (List.replicate n (blank cfg zero zf)) = true := by
  unfold blank allSome; simp [ht]

theorem fillDef_ok {cfg : Cfg} {zero : α} {zf : Bool} {h : Heap α} {v os h' v'} {A B : Cells α} {n : Nat} {null : Bool}
    (hi : Inv cfg h (v :: os))
    (ho : (null = false ∧ Opened cfg h os h' v' A B n 0) ∨
       (null = true ∧ Kind.normal = .normal ∧ n = 0 ∧ 0 = 0 ∧ Done cfg h os h' v' (A ++ B)))
    (hA : cfg.trivial = false → allSome A = true ∧ allSome B = true) :
    ∃ h'' v'', defInit cfg zero zf h' v' null A.length n = .ok (h'', v'') ∧
      Done cfg h os h'' v'' (A ++ List.replicate n (blank cfg zero zf) ++ B) := by
  rcases ho with ⟨rfl, ho⟩ | ⟨rfl, _, h0, _, hd⟩
  · obtain ⟨h2, v2, e, o⟩ := fill_def (zero := zero) (zf := zf) ho
    exact ⟨h2, v2, e, o.done hi (fun ht => ⟨by
      have := blank_some (zero := zero) (zf := zf) (n := n) ht
      rw [allSome_append, (hA ht).1, this]; rfl, (hA ht).2⟩)⟩
  · subst h0
    exact ⟨h', v', by simp [defInit], by simpa using hd⟩

theorem resize_ok {cfg : Cfg} (hv : Valid cfg) {zero : α} {zf} {h : Heap α} {v : Hdr α} {os} (s1 : Int)
    (hi : Inv cfg h (v :: os)) (hlt : max (items h v).length s1.toNat + 1 < 2 ^ 31) :
    Res cfg h os (resize cfg zero zf h v s1)
      ((items h v).take s1.toNat ++ List.replicate (s1.toNat - (items h v).length) (blank cfg zero zf)) := by
  have hlen := items_length hi
  unfold resize
  simp only
  by_cases hs : s1 ≤ v.size
  · -- shrinking
    have hrem : (if (v.size : Int) - s1 > 0 then (v.size : Int) - s1 else 0) = v.size - s1 := by split <;> omega
    have hadd : (if s1 - (v.size : Int) > 0 then s1 - (v.size : Int) else 0) = 0 := by split <;> omega
    rw [hrem, hadd]
    have hp : v.size - s1.toNat = clampCnt (v.size - 0 - 0) (v.size - s1) := by
      unfold clampCnt; split <;> (try split) <;> omega
    rcases spliceRaw_ok hv hi (kind := .normal) (by simp) 0 0 0 (v.size - s1) 0 (i := 0) (d := 0) (n := 0) (m := 0)
      (by simp [clampIdx]) (by simp [clampCnt]) hp rfl rfl (by omega) with he | ⟨h', v', null, he, ho⟩
    · left; rw [he]; rfl
    · right
      have hdone : Done cfg h os h' v' ((items h v).take s1.toNat) := by
        rcases ho with ⟨_, ho⟩ | ⟨_, _, _, _, ho⟩
        · have := ho.done hi (fun ht => ⟨allSome_take (items_some hi ht), allSome_take (allSome_drop (items_some hi ht))⟩)
          simp only [List.take_zero, List.nil_append, Nat.add_zero, List.drop_zero] at this
          rwa [show v.size - 0 - 0 - (v.size - s1.toNat) = s1.toNat by omega] at this
        · simp only [List.take_zero, List.nil_append, Nat.add_zero, List.drop_zero] at ho
          rwa [show v.size - 0 - 0 - (v.size - s1.toNat) = s1.toNat by omega] at ho
      have hsz : v'.size = s1.toNat := by
        rw [← items_length hdone.inv, hdone.items]; simp [hlen]; omega
      refine ⟨h', v', ?_, ?_⟩
      · rw [he]
        show defInit cfg zero zf h' v' null v.size (v'.size - v.size) = _
        rw [show v'.size - v.size = 0 by omega]; simp [defInit]
      · rw [show s1.toNat - (items h v).length = 0 by omega]; simpa using hdone
  · have hrem : (if (v.size : Int) - s1 > 0 then (v.size : Int) - s1 else 0) = 0 := by split <;> omega
    have hadd : (if s1 - (v.size : Int) > 0 then s1 - (v.size : Int) else 0) = s1 - v.size := by split <;> omega
    rw [hrem, hadd]
    have hm : s1.toNat - v.size = posPart (s1 - v.size) := by unfold posPart; split <;> omega
    rcases spliceRaw_ok hv hi (kind := .normal) (by simp) 0 0 0 0 (s1 - v.size) (i := 0) (d := 0) (p := 0) (n := 0)
      (by simp [clampIdx]) (by simp [clampCnt]) (by simp [clampCnt]) rfl hm (by omega) with he | ⟨h', v', null, he, ho⟩
    · left; rw [he]; rfl
    · right
      rcases ho with ⟨rfl, ho⟩ | ⟨_, _, _, h0, _⟩
      · have ho' := opened_push_eq ho
        have e : (items h v).take 0 ++ ((items h v).drop (0 + 0)).take (v.size - 0 - 0 - 0) = items h v := by
          rw [← hlen]; simp
        rw [e] at ho'
        obtain ⟨h2, v2, e2, o⟩ := fillDef_ok (zero := zero) (zf := zf) hi (Or.inl ⟨rfl, ho'⟩)
          (fun ht => ⟨items_some hi ht, rfl⟩)
        refine ⟨h2, v2, ?_, ?_⟩
        · rw [he]
          show defInit cfg zero zf h' v' false v.size (v'.size - v.size) = _
          rw [← e2, ho'.size, hlen]
          congr 1
          simp
        · rw [List.take_of_length_le (by omega), hlen]; simpa using o
      · omega

theorem grow_ok {cfg : Cfg} (hv : Valid cfg) {zero : α} {zf} {h : Heap α} {v : Hdr α} {os} (s1 : Int)
    (hi : Inv cfg h (v :: os)) (hlt : max (items h v).length s1.toNat + 1 < 2 ^ 31) :
    Res cfg h os (grow cfg zero zf h v s1)
      (items h v ++ List.replicate (s1.toNat - (items h v).length) (blank cfg zero zf)) := by
  have hlen := items_length hi
  unfold grow
  simp only
  have hm : s1.toNat - v.size = posPart (s1 - v.size) := by unfold posPart; split <;> omega
  rcases spliceRaw_ok hv hi (kind := .normal) (by simp) 0 0 0 0 (s1 - v.size) (i := 0) (d := 0) (p := 0) (n := 0)
    (by simp [clampIdx]) (by simp [clampCnt]) (by simp [clampCnt]) rfl hm (by omega) with he | ⟨h', v', null, he, ho⟩
  · left; rw [he]; rfl
  · right
    have e : (items h v).take 0 ++ ((items h v).drop (0 + 0)).take (v.size - 0 - 0 - 0) = items h v := by
      rw [← hlen]; simp
    rcases ho with ⟨rfl, ho⟩ | ⟨_, _, _, h0, hd⟩
    · have ho' := opened_push_eq ho
      rw [e] at ho'
      obtain ⟨h2, v2, e2, o⟩ := fillDef_ok (zero := zero) (zf := zf) hi (Or.inl ⟨rfl, ho'⟩)
        (fun ht => ⟨items_some hi ht, rfl⟩)
      refine ⟨h2, v2, ?_, ?_⟩
      · rw [he]
        show defInit cfg zero zf h' v' false v.size (v'.size - v.size) = _
        rw [← e2, ho'.size, hlen]
        congr 1
        simp
      · rw [hlen]; simpa using o
    · rw [e] at hd
      have hsz : v'.size = v.size := by rw [← items_length hd.inv, hd.items, hlen]
      refine ⟨h', v', ?_, ?_⟩
      · rw [he]
        show defInit cfg zero zf h' v' null v.size (v'.size - v.size) = _
        rw [hsz]; simp [defInit]
      · rw [hlen, h0]; simpa using hd

theorem spliceEmpty_ok {cfg : Cfg} (hv : Valid cfg) {zero : α} {zf} {h : Heap α} {v : Hdr α} {os} (idx del count : Int)
    {d : Nat} (hi : Inv cfg h (v :: os)) (hI : 0 ≤ idx ∧ idx ≤ v.size) (hD : d = clampCnt (v.size - idx.toNat) del)
    (hlt : (items h v).length - d + count.toNat + 1 < 2 ^ 31) :
    Res cfg h os (spliceEmpty cfg zero zf h v idx del count)
      ((items h v).take idx.toNat ++ List.replicate count.toNat (blank cfg zero zf) ++ (items h v).drop (idx.toNat + d)) := by
  have hlen := items_length hi
  have hcI : idx.toNat = clampIdx v.size idx := by unfold clampIdx; split <;> (try split) <;> omega
  have hd' : d ≤ v.size - idx.toNat := hD ▸ clampCnt_le _ _
  have hpp : count.toNat = posPart count := by unfold posPart; split <;> omega
  unfold spliceEmpty
  rcases spliceRaw_ok hv hi (kind := .normal) (by simp) idx del count 0 0 (p := 0) (m := 0)
    hcI hD (by simp [clampCnt]) hpp rfl (by omega) with he | ⟨h', v', null, he, ho⟩
  · left; rw [he]; rfl
  · right
    obtain ⟨h2, v2, e, o⟩ := fillDef_ok (zero := zero) (zf := zf) hi ho
      (fun ht => ⟨allSome_take (items_some hi ht), allSome_take (allSome_drop (items_some hi ht))⟩)
    refine ⟨h2, v2, ?_, ?_⟩
    · rw [he]
      show defInit cfg zero zf h' v' null idx (posPart count) = _
      rw [← e, ← hpp]
      congr 1
      simp only [List.length_take, hlen]
      omega
    · rwa [List.take_of_length_le (l := (items h v).drop (idx.toNat + d)) (by simp [hlen]; omega)] at o

theorem shrink_ok {cfg : Cfg} (hv : Valid cfg) {h : Heap α} {v : Hdr α} {os} (s1 : Int)
    (hi : Inv cfg h (v :: os)) (hlt : (items h v).length + 1 < 2 ^ 31) :
    Res cfg h os (shrink cfg h v s1) ((items h v).take s1.toNat) := by
  have hlen := items_length hi
  have := spliceRaw_del hv hi 0 0 (v.size - s1) (i := 0) (d := 0) (by simp [clampIdx]) (by simp [clampCnt]) rfl hlt
    (shrink cfg h v s1) rfl
  simp only [List.take_zero, List.nil_append, Nat.add_zero, List.drop_zero] at this
  by_cases hs : s1 ≤ v.size
  · rwa [show v.size - 0 - 0 - clampCnt (v.size - 0 - 0) (v.size - s1) = s1.toNat by
      unfold clampCnt; split <;> (try split) <;> omega] at this
  · rw [show v.size - 0 - 0 - clampCnt (v.size - 0 - 0) (v.size - s1) = v.size by
      unfold clampCnt; split <;> (try split) <;> omega, ← hlen, List.take_length] at this
    rwa [List.take_of_length_le (by omega)]

theorem pop_ok {cfg : Cfg} (hv : Valid cfg) {h : Heap α} {v : Hdr α} {os}
    (hi : Inv cfg h (v :: os)) (hne : items h v ≠ []) (hlt : (items h v).length + 1 < 2 ^ 31) :
    Res cfg h os (pop cfg h v) (items h v).dropLast := by
  have hlen := items_length hi
  have h0 : 0 < (items h v).length := List.length_pos_iff.2 hne
  unfold pop
  rw [if_neg (by omega)]
  have := spliceRaw_del hv hi 0 0 1 (i := 0) (d := 0) (p := 1) (by simp [clampIdx]) (by simp [clampCnt])
    (by unfold clampCnt; split <;> (try split) <;> omega) hlt _ rfl
  simp only [List.take_zero, List.nil_append, Nat.add_zero, List.drop_zero] at this
  rw [List.dropLast_eq_take, hlen]
  exact this

theorem shift1_ok {cfg : Cfg} (hv : Valid cfg) {h : Heap α} {v : Hdr α} {os}
    (hi : Inv cfg h (v :: os)) (hne : items h v ≠ []) (hlt : (items h v).length + 1 < 2 ^ 31) :
    Res cfg h os (shift1 cfg h v) (items h v).tail := by
  have hlen := items_length hi
  have h0 : 0 < (items h v).length := List.length_pos_iff.2 hne
  unfold shift1
  rw [if_neg (by omega)]
  have := spliceRaw_del hv hi 0 1 0 (i := 0) (d := 1) (p := 0) (by simp [clampIdx])
    (by unfold clampCnt; split <;> (try split) <;> omega) (by simp [clampCnt]) hlt _ rfl
  simp only [List.take_zero, List.nil_append, Nat.zero_add, List.drop_one] at this
  rwa [List.take_of_length_le (by simp; omega)] at this

theorem spliceDel_ok {cfg : Cfg} (hv : Valid cfg) {h : Heap α} {v : Hdr α} {os} (idx del : Int) {i d : Nat}
    (hi : Inv cfg h (v :: os)) (hI : i = clampIdx v.size idx) (hD : d = clampCnt (v.size - i) del)
    (hlt : (items h v).length + 1 < 2 ^ 31) :
    Res cfg h os (spliceDel cfg h v idx del) ((items h v).take i ++ (items h v).drop (i + d)) := by
  have hlen := items_length hi
  have hd' : d ≤ v.size - i := hD ▸ clampCnt_le _ _
  have hi' : i ≤ v.size := hI ▸ clampIdx_le _ _
  have := spliceRaw_del hv hi idx del 0 (p := 0) hI hD (by simp [clampCnt]) hlt _ rfl
  rwa [List.take_of_length_le (l := (items h v).drop (i + d)) (by simp [hlen]; omega)] at this

theorem shiftPop_ok {cfg : Cfg} (hv : Valid cfg) {h : Heap α} {v : Hdr α} {os} (s p : Int) {d k : Nat}
    (hi : Inv cfg h (v :: os)) (hD : d = clampCnt v.size s) (hP : k = clampCnt (v.size - d) p)
    (hlt : (items h v).length + 1 < 2 ^ 31) :
    Res cfg h os (shiftPop cfg h v s p) (((items h v).drop d).take ((items h v).length - d - k)) := by
  have hlen := items_length hi
  have := spliceRaw_del hv hi 0 s p (i := 0) (d := d) (p := k) (by simp [clampIdx]) (by simpa using hD) (by simpa using hP)
    hlt _ rfl
  simp only [List.take_zero, List.nil_append, Nat.zero_add, Nat.sub_zero] at this
  rw [hlen]; exact this

/-- `reserve` keeps the items; unless it returns early the storage is ours. -/
theorem reserve_ok {cfg : Cfg} (hv : Valid cfg) {h : Heap α} {v : Hdr α} {os} (c : Int)
    (hi : Inv cfg h (v :: os)) (hlt : max (items h v).length c.toNat + 1 < 2 ^ 31) :
    reserve cfg h v c = .error .exit ∨ ∃ h' v', reserve cfg h v c = .ok (h', v') ∧ Done cfg h os h' v' (items h v) ∧
      (cfg.copiable = true → NotShared v') := by
  have hlen := items_length hi
  have hsh := hi.1.shape v (by simp)
  have hself : Done cfg h os h v (items h v) := ⟨hi, Frame.refl _ _, rfl⟩
  unfold reserve
  split
  · rename_i hsm
    right
    refine ⟨h, v, rfl, hself, fun _ => ?_⟩
    cases v with
    | small => trivial
    | big b n cc s =>
      cases s with
      | false => rfl
      | true => simp [reserveFast] at hsm
  · split
    · rename_i hc
      right
      exact ⟨h, v, rfl, hself, fun hcp => by rw [hc.2] at hcp; cases hcp⟩
    · generalize hg : (if c = 0 then (0 : Int) else c - v.size) = g
      have hgle : posPart g ≤ c.toNat - v.size := by
        rw [← hg]; unfold posPart; split <;> split <;> omega
      rcases spliceRaw_ok hv hi (kind := .reserve) (by simp) 0 0 0 0 g (i := 0) (d := 0) (p := 0) (n := 0) (m := posPart g)
        (by simp [clampIdx]) (by simp [clampCnt]) (by simp [clampCnt]) rfl rfl (by omega) with he | ⟨h', v', null, he, ho⟩
      · left; rw [he]; rfl
      · right
        rcases ho with ⟨rfl, ho⟩ | ⟨_, hk, _⟩
        · have ho' := opened_push_eq ho
          have e : (items h v).take 0 ++ ((items h v).drop (0 + 0)).take (v.size - 0 - 0 - 0) = items h v := by
            rw [← hlen]; simp
          rw [e] at ho'
          obtain ⟨g1, g2, rest, q1, q2, q3, q4, q5⟩ := ho'.length_eq
          have hroom := room_eq (ho'.core.shape v' (by simp)) q1
          have ho2 : Opened cfg h os h' (v'.setSize v.size) (items h v) [] 0 0 := by
            refine ⟨setSize_core ho'.core (by rw [hroom]; simp [hlen]), ho'.frame, setSize_notShared ho'.notShared,
              by simp [hlen], [], [], g1 ++ g2 ++ rest, by simp [q1], rfl, rfl, fun ht => ⟨rfl, rfl, ?_⟩⟩
            obtain ⟨a1, a2, a3⟩ := q4 ht
            simp [a1, a2, a3]
          refine ⟨h', v'.setSize v.size, by rw [he]; rfl, ?_, fun _ => ho2.notShared⟩
          simpa using ho2.done hi (fun ht => ⟨items_some hi ht, by simp [allSome]⟩)
        · cases hk

theorem makeUnique_ok {cfg : Cfg} (hv : Valid cfg) {h : Heap α} {v : Hdr α} {os}
    (hi : Inv cfg h (v :: os)) (hlt : (items h v).length + 1 < 2 ^ 31) :
    makeUnique cfg h v = .error .exit ∨ ∃ h' v', makeUnique cfg h v = .ok (h', v') ∧ Done cfg h os h' v' (items h v) ∧
      NotShared v' := by
  unfold makeUnique
  split
  · rename_i hc
    rcases reserve_ok hv 0 hi (by simpa using hlt) with he | ⟨h', v', he, hd, hn⟩
    · exact Or.inl he
    · exact Or.inr ⟨h', v', he, hd, hn hc⟩
  · rename_i hc
    refine Or.inr ⟨h, v, rfl, ⟨hi, Frame.refl _ _, rfl⟩, ?_⟩
    have hsh := hi.1.shape v (by simp)
    cases v with
    | small => trivial
    | big b n c s => obtain ⟨_, _, _, _, _, _, _, hs⟩ := hsh; exact hs (by simpa using hc)

theorem get_ok {cfg : Cfg} {h : Heap α} {v : Hdr α} {os} (hi : Inv cfg h (v :: os)) (k : Int) :
    get h v k = if 0 ≤ k then (match (items h v)[k.toNat]? with | some x => .ok x | none => .error .trap)
      else .error .trap := by
  have hlen := items_length hi
  have hsh := hi.1.shape v (by simp)
  obtain ⟨cs, hc, _, hle⟩ := loadCells_ok hsh
  unfold get
  by_cases h0 : 0 ≤ k
  · rw [if_pos h0]
    by_cases hk : k < v.size
    · rw [if_pos ⟨h0, hk⟩, hc]
      have e : (items h v)[k.toNat]? = cs[k.toNat]? := by
        unfold items; rw [hc]; simp only [Option.getD_some]
        rw [List.getElem?_take, if_pos (by omega)]
      rw [e]
      simp only
      rw [List.getElem?_eq_getElem (by omega)]
    · rw [if_neg (by omega), List.getElem?_eq_none (by omega)]
  · rw [if_neg h0, if_neg (by omega)]

theorem set_ok {cfg : Cfg} (hv : Valid cfg) {h : Heap α} {v : Hdr α} {os} (k : Int) (x : α)
    (hi : Inv cfg h (v :: os)) (hk : 0 ≤ k ∧ k < (items h v).length) (hlt : (items h v).length + 1 < 2 ^ 31) :
    Res cfg h os (set cfg h v k x) ((items h v).set k.toNat (some x)) := by
  unfold set
  rcases makeUnique_ok hv hi hlt with he | ⟨h1, v1, he, hd, hn⟩
  · left; rw [he]; rfl
  · right
    have hlen1 := items_length hd.inv
    rw [hd.items] at hlen1
    have hsh := hd.inv.1.shape v1 (by simp)
    obtain ⟨cs, hc, hload, hle⟩ := loadCells_ok hsh
    obtain ⟨h2, v2, s1, s2, s3, s4, s5, s6, s7, s8, s9, s10, s11⟩ := storeCells_ok hd.inv.1 (sole_of_notShared hn hsh) hc
      (cs' := cs.set k.toNat (some x)) (by simp)
    have hit : items h2 v2 = (items h v).set k.toNat (some x) := by
      rw [← hd.items]
      unfold items; rw [s4, s5, hc]
      simp only [Option.getD_some]
      rw [List.take_set]
    refine ⟨h2, v2, ?_, ⟨inv_of_frame s2 s3 (inv_tail hd.inv) ?_, hd.frame.trans s3, hit⟩⟩
    · rw [he]
      show (if 0 ≤ k ∧ k < v1.size then _ else _) = _
      rw [if_pos (by omega), hload]
      show (match cs[k.toNat]? with | some old => _ | none => _) = _
      rw [List.getElem?_eq_getElem (by omega)]
      simp only
      rw [if_pos, s1]
      by_cases ht : cfg.trivial = true
      · simp [ht]
      · have ht' : cfg.trivial = false := by simpa using ht
        have := (hd.inv.2 v1 (by simp) ht' cs hc).1
        unfold allSome at this
        rw [List.all_eq_true] at this
        simp only [Bool.or_eq_true]
        right
        apply this
        rw [List.mem_take_iff_getElem]
        exact ⟨k.toNat, by omega, rfl⟩
    · intro ht cs2 hcs2
      rw [s4] at hcs2; cases hcs2
      obtain ⟨a1, a2⟩ := hd.inv.2 v1 (by simp) ht cs hc
      rw [s5, List.take_set, List.drop_set_of_lt (by omega)]
      refine ⟨?_, a2⟩
      unfold allSome at a1 ⊢
      rw [List.all_eq_true] at a1 ⊢
      intro y hy
      rcases List.mem_or_eq_of_mem_set hy with hy | rfl
      · exact a1 y hy
      · rfl

end Verif.Vec
