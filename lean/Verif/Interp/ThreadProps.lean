import Verif.Interp.ThreadLemmas
import Verif.Interp.Kernel
import Verif.Interp.Dim
import Mathlib.Algebra.BigOperators.Ring.Finset
import Mathlib.Data.Rat.Floor

/-!
# C66: the threads of the interpolation kernels do not interfere
-/

namespace Verif

section
variable {F K : Type} [Add F]

theorem nodup_flatMap_index {α β : Type} {l : List α} {f : α → List β} (h : (l.flatMap f).Nodup) {t u : Nat}
    {a b : α} (ha : l[t]? = some a) (hb : l[u]? = some b) {c : β} (hca : c ∈ f a) (hcb : c ∈ f b) : t = u := by
  obtain ⟨-, hp⟩ := List.nodup_flatMap.1 h
  rw [List.pairwise_iff_getElem] at hp
  obtain ⟨ht, rfl⟩ := List.getElem?_eq_some_iff.1 ha
  obtain ⟨hu, rfl⟩ := List.getElem?_eq_some_iff.1 hb
  rcases Nat.lt_trichotomy t u with hlt | heq | hgt
  · exact absurd hcb (hp t u ht hu hlt hca)
  · exact heq
  · exact absurd hca (hp u t hu ht hgt hcb)

theorem flatMap_range_getElem {α β : Type} (l : List α) (f : α → List β) :
    ((List.range l.length).flatMap fun t => ((l[t]?).map f).getD []) = l.flatMap f := by
  induction l with
  | nil => rfl
  | cons a l ih =>
    rw [List.length_cons, List.range_succ_eq_map, List.flatMap_cons, List.flatMap_map, List.flatMap_cons, ← ih]
    rfl

/-- Chunks of rows, the statements of row `c` keeping to the positions `c * V, ..., (c + 1) * V - 1`. -/
theorem parallelFor_rows {n V : Nat} {chunks : List (Nat × Nat)} (hc : Covers n chunks)
    (row : Nat → List (MemOp F))
    (hr : ∀ c < n, ∀ o ∈ row c, c * V ≤ o.addr ∧ o.addr < (c + 1) * V) (m₀ : Nat → F) {sched : List Nat}
    {s : Threads F} (e : Threads.run sched (parallelFor chunks (fun q =>
      (List.range' q.1 (q.2 - q.1)).flatMap row) m₀) = some s) :
    ¬ s.Race ∧ sched.length ≤ 2 * ((List.range n).flatMap row).length ∧
    ((∀ t, s.step t = none) → s.mem = runOps ((List.range n).flatMap row) m₀) := by
  let prog : Nat × Nat → List (MemOp F) := fun q => (List.range' q.1 (q.2 - q.1)).flatMap row
  let progs : Nat → List (MemOp F) := fun t => ((chunks[t]?).map prog).getD []
  let A : Nat → Nat → Prop := fun t k => ∃ q c, chunks[t]? = some q ∧ c ∈ List.range' q.1 (q.2 - q.1) ∧
    c * V ≤ k ∧ k < (c + 1) * V
  have hall : (List.range chunks.length).flatMap progs = (List.range n).flatMap row := by
    rw [flatMap_range_getElem, ← hc, List.flatMap_assoc]
  have hmem : ∀ q ∈ chunks, ∀ c ∈ List.range' q.1 (q.2 - q.1), c < n := by
    intro q hq c hcq
    have : c ∈ List.range n := hc ▸ List.mem_flatMap.2 ⟨q, hq, hcq⟩
    exact List.mem_range.1 this
  have h := threads_separate (N := chunks.length) (progs := progs) (A := A) (m₀ := m₀) (sched := sched) (s := s)
    (fun t o ho => ?_) (fun t ht => ?_) (fun t u k => ?_) e
  · refine ⟨h.1, h.2.1.trans (Nat.le_of_eq ?_), fun hs => ?_⟩
    · rw [← hall, List.length_flatMap, ← Finset.mul_sum]
      rfl
    · rw [h.2.2 hs, hall]
  · cases eq : chunks[t]? with
    | none => simp [progs, eq] at ho
    | some q =>
      simp only [progs, eq, Option.map_some, Option.getD_some, prog, List.mem_flatMap] at ho
      obtain ⟨c, hcq, ho⟩ := ho
      have := hr c (hmem q (List.mem_of_getElem? eq) c hcq) o ho
      exact ⟨q, c, eq, hcq, this⟩
  · simp [progs, List.getElem?_eq_none ht]
  · rintro ⟨q, c, h1, h2, h3, h4⟩ ⟨q', c', h1', h2', h3', h4'⟩
    have hcc : c = c' := by
      have a1 : c * V < (c' + 1) * V := by omega
      have a2 : c' * V < (c + 1) * V := by omega
      have b1 := Nat.lt_of_mul_lt_mul_right a1
      have b2 := Nat.lt_of_mul_lt_mul_right a2
      omega
    subst hcc
    have hnd : (chunks.flatMap fun q => List.range' q.1 (q.2 - q.1)).Nodup := by
      rw [show _ = List.range n from hc]
      exact List.nodup_range
    exact nodup_flatMap_index hnd h1 h1' h2 h2'

end

section
variable {K : Type} [Field K] [LinearOrder K] [FloorRing K] {F : Type}

theorem kernelEntries_rows (p : InterpParams K) (nbc : Nat) (ds : List InterpDim) :
    kernelEntries p nbc ds = (List.range nbc).flatMap (kernelRow p ds) := rfl

theorem mem_kernelRow {p : InterpParams K} {ds : List InterpDim} {c : Nat} {e : Int × List (Int × K)} :
    e ∈ kernelRow p ds c ↔ ∃ o, InBounds o (ds.map InterpDim.lo) ∧ entryOf p ds c o = e := by
  unfold kernelRow
  simp only [List.mem_map, mem_rangeIndex]
  rfl

/-- Positions of row `c`. -/
theorem row_position (shape : List Nat) (c : Nat) {o : List Nat} (ho : InBounds o shape) :
    c * shape.prod ≤ (hornerIdx c shape (o.map fun i : Nat => (i : Int))).toNat ∧
    (hornerIdx c shape (o.map fun i : Nat => (i : Int))).toNat < (c + 1) * shape.prod := by
  rw [hornerIdx_eq c ho.length_eq 0, Int.toNat_natCast]
  have := flatC_lt ho
  simp only [flatC, Nat.add_mul, Nat.one_mul]
  omega

omit [Field K] [LinearOrder K] [FloorRing K] in
theorem fwdOps_addr {mul : K → F → F} {x : Nat → F} {e : Int × List (Int × K)} {o : MemOp F}
    (h : o ∈ fwdOps mul x e) : o.addr = e.1.toNat := by
  unfold fwdOps at h
  split at h
  · simp at h
  · rcases List.mem_cons.1 h with rfl | h
    · rfl
    · obtain ⟨t, -, rfl⟩ := List.mem_map.1 h
      rfl

theorem dimTerms_range (p : InterpParams K) (d : InterpDim) (o : Nat) (hd : 0 < d.li) :
    ∀ t ∈ dimTerms p d o, 0 ≤ t.1 ∧ t.1 < d.li := by
  have hc : ∀ i, 0 ≤ clampIdx i 0 ((d.li : Int) - 1) ∧ clampIdx i 0 ((d.li : Int) - 1) < d.li := by
    intro i
    unfold clampIdx
    omega
  intro t ht
  unfold dimTerms at ht
  dsimp only at ht
  split at ht
  · rw [List.mem_singleton] at ht
    subst ht
    exact hc _
  · simp only [List.mem_cons, List.not_mem_nil, or_false] at ht
    rcases ht with rfl | rfl <;> exact hc _

theorem dimTerms_ne_nil (p : InterpParams K) (d : InterpDim) (o : Nat) : dimTerms p d o ≠ [] := by
  unfold dimTerms
  dsimp only
  split <;> simp

omit [LinearOrder K] [FloorRing K] in
theorem cornerTerms_ne_nil {ts : List (List (Int × K))} (h : ∀ d ∈ ts, d ≠ []) : cornerTerms ts ≠ [] := by
  induction ts with
  | nil => simp [cornerTerms]
  | cons d ds ih =>
    have h1 := h d (List.mem_cons_self ..)
    have h2 := ih fun d' hd' => h d' (List.mem_cons_of_mem _ hd')
    obtain ⟨t, d, rfl⟩ := List.exists_cons_of_ne_nil h1
    obtain ⟨u, us, hu⟩ := List.exists_cons_of_ne_nil h2
    simp [cornerTerms, hu]

theorem outputTerms_ne_nil (p : InterpParams K) (ds : List InterpDim) (o : List Nat) :
    ∀ d ∈ outputTerms p ds o, d ≠ [] := by
  induction ds generalizing o with
  | nil => simp [outputTerms]
  | cons d ds ih =>
    cases o with
    | nil => simp [outputTerms]
    | cons i is =>
      intro d' hd'
      rcases List.mem_cons.1 hd' with rfl | hd'
      · exact dimTerms_ne_nil p d i
      · exact ih is d' hd'

/-- Input positions of row `c`. -/
theorem term_position (p : InterpParams K) (ds : List InterpDim) (hd : ∀ d ∈ ds, 0 < d.li) (c : Nat)
    {o : List Nat} (ho : InBounds o (ds.map InterpDim.lo)) {t : Int × K} (ht : t ∈ (entryOf p ds c o).2) :
    c * (ds.map InterpDim.li).prod ≤ t.1.toNat ∧ t.1.toNat < (c + 1) * (ds.map InterpDim.li).prod := by
  simp only [entryOf, List.mem_map] at ht
  obtain ⟨u, hu, rfl⟩ := ht
  have hlen : o.length = ds.length := by simpa using ho.length_eq
  obtain ⟨h1, h2⟩ := mem_cornerTerms hu
  rw [outputTerms_length p ds o hlen] at h1 h2
  have hr : ∀ j, j < ds.length → 0 ≤ u.1.getD j 0 ∧ u.1.getD j 0 < (ds.getD j default).li := by
    intro j hj
    obtain ⟨t, ht, e⟩ := h2 j hj
    rw [outputTerms_getD p ds o hlen hj] at ht
    rw [← e]
    refine dimTerms_range p _ _ (hd _ ?_) t ht
    rw [List.getD_eq_getElem _ _ hj]
    exact List.getElem_mem hj
  have hnat : u.1 = (u.1.map Int.toNat).map fun i : Nat => (i : Int) := by
    rw [List.map_map]
    conv_lhs => rw [← List.map_id u.1]
    refine List.map_congr_left fun a ha => ?_
    obtain ⟨j, hj, rfl⟩ := List.getElem_of_mem ha
    have := (hr j (by omega)).1
    rw [List.getD_eq_getElem _ _ hj] at this
    simp [this]
  rw [hnat]
  refine row_position (ds.map InterpDim.li) c ?_
  rw [inBounds_iff]
  refine ⟨by simp [h1], fun j hj => ?_⟩
  have hj' : j < ds.length := by simpa using hj
  have hj2 : j < u.1.length := by omega
  have := hr j hj'
  rw [List.getD_eq_getElem _ _ hj2, List.getD_eq_getElem _ _ hj'] at this
  rw [List.getD_eq_getElem _ _ (by simpa using hj2), List.getD_eq_getElem _ _ hj]
  simp only [List.getElem_map]
  omega

/-! ## C66 -/

/-- C66, forward: whatever the chunks, the schedule and the (possibly rounding) arithmetic, the threads never
race, finish, and leave what a single thread leaves that runs through the rows in order. -/
theorem C66_forward [Add F] (p : InterpParams K) (nbc : Nat) (ds : List InterpDim) {chunks : List (Nat × Nat)}
    (hc : Covers nbc chunks) (mul : K → F → F) (x m₀ : Nat → F) {sched : List Nat} {s : Threads F}
    (e : Threads.run sched (parallelFor chunks (chunkOps p ds (fwdOps mul x)) m₀) = some s) :
    ¬ s.Race ∧ sched.length ≤ 2 * ((kernelEntries p nbc ds).flatMap (fwdOps mul x)).length ∧
    ((∀ t, s.step t = none) → s.mem = runOps ((kernelEntries p nbc ds).flatMap (fwdOps mul x)) m₀) := by
  rw [kernelEntries_rows, List.flatMap_assoc]
  refine parallelFor_rows (V := (ds.map InterpDim.lo).prod) hc (fun c => (kernelRow p ds c).flatMap (fwdOps mul x))
    (fun c _ o ho => ?_) m₀ e
  obtain ⟨en, hen, ho⟩ := List.mem_flatMap.1 ho
  obtain ⟨i, hi, rfl⟩ := mem_kernelRow.1 hen
  rw [fwdOps_addr ho]
  exact row_position _ c hi

/-- C66, adjoint: the same for the accumulations of a call whose accesses lie inside the tensors
(`C50_starts`, `C65_starts`). -/
theorem C66_adjoint [Add F] (p : InterpParams K) (nbc : Nat) (ds : List InterpDim) {chunks : List (Nat × Nat)}
    (hc : Covers nbc chunks) {nOut : Nat}
    (hdef : kernelDefined p (nbc * (ds.map InterpDim.li).prod) nOut nbc ds = true) (mul : K → F → F) (y m₀ : Nat → F) {sched : List Nat}
    {s : Threads F}
    (e : Threads.run sched (parallelFor chunks (chunkOps p ds (adjOps mul y)) m₀) = some s) :
    ¬ s.Race ∧ sched.length ≤ 2 * ((kernelEntries p nbc ds).flatMap (adjOps mul y)).length ∧
    ((∀ t, s.step t = none) → s.mem = runOps ((kernelEntries p nbc ds).flatMap (adjOps mul y)) m₀) := by
  rw [kernelEntries_rows, List.flatMap_assoc]
  refine parallelFor_rows (V := (ds.map InterpDim.li).prod) hc (fun c => (kernelRow p ds c).flatMap (adjOps mul y))
    (fun c hcn o ho => ?_) m₀ e
  obtain ⟨en, hen, ho⟩ := List.mem_flatMap.1 ho
  obtain ⟨i, hi, rfl⟩ := mem_kernelRow.1 hen
  obtain ⟨t, ht, rfl⟩ := List.mem_map.1 ho
  refine term_position p ds (fun d hd => ?_) c hi ht
  have ht' := ((kernelDefined_iff.1 hdef).2 _ (mem_kernelEntries.2 ⟨c, i, hcn, hi, rfl⟩)).2.2 t ht
  rcases Nat.eq_zero_or_pos d.li with h0 | h0
  · have hz : (ds.map InterpDim.li).prod = 0 := List.prod_eq_zero (h0 ▸ List.mem_map_of_mem hd)
    rw [hz] at ht'
    omega
  · exact h0

omit [LinearOrder K] [FloorRing K] in
theorem runOps_adds {α : Type} (k : Nat) (v : α → K) (ts : List α) (m : Nat → K) :
    runOps (ts.map fun t => MemOp.add k (v t)) m = Function.update m k (m k + (ts.map v).sum) := by
  induction ts generalizing m with
  | nil => simp [runOps]
  | cons t ts ih =>
    change runOps (ts.map fun t => MemOp.add k (v t)) (Function.update m k (m k + v t)) = _
    rw [ih, Function.update_idem, Function.update_self, List.map_cons, List.sum_cons, add_assoc]

/-- C66, exact arithmetic: the result is the one of the sequential kernels, `kernelForward` (on which C50 is
built) and `kernelAdjoint` (C51, C65). -/
theorem C66_exact (p : InterpParams K) (nbc : Nat) (ds : List InterpDim) {chunks : List (Nat × Nat)}
    (hc : Covers nbc chunks) (x m₀ : Nat → K) {sched : List Nat} {s : Threads K} (hs : ∀ t, s.step t = none) :
    (Threads.run sched (parallelFor chunks (chunkOps p ds (fwdOps (· * ·) x)) m₀) = some s →
      s.mem = kernelForward (kernelEntries p nbc ds) x m₀) ∧
    (∀ nOut, kernelDefined p (nbc * (ds.map InterpDim.li).prod) nOut nbc ds = true →
      Threads.run sched (parallelFor chunks (chunkOps p ds (adjOps (· * ·) x)) m₀) = some s →
      s.mem = kernelAdjoint (kernelEntries p nbc ds) x m₀) := by
  constructor
  · intro e
    rw [(C66_forward p nbc ds hc _ x m₀ e).2.2 hs]
    have hne : ∀ en ∈ kernelEntries p nbc ds, en.2 ≠ [] := by
      intro en hen
      obtain ⟨c, o, -, -, rfl⟩ := mem_kernelEntries.1 hen
      simpa [entryOf] using cornerTerms_ne_nil (outputTerms_ne_nil p ds o)
    clear e
    revert hne
    generalize kernelEntries p nbc ds = es
    intro hne
    induction es generalizing m₀ with
    | nil => rfl
    | cons en es ih =>
      rw [List.flatMap_cons, runOps_append, ih _ fun en' h => hne en' (List.mem_cons_of_mem _ h)]
      change _ = kernelForward es x (Function.update m₀ en.1.toNat (en.2.map fun t => t.2 * x t.1.toNat).sum)
      congr 1
      obtain ⟨k, ts⟩ := en
      obtain ⟨t, ts, rfl⟩ := List.exists_cons_of_ne_nil (hne _ (List.mem_cons_self ..))
      change runOps (ts.map fun t => MemOp.add k.toNat (t.2 * x t.1.toNat))
        (Function.update m₀ k.toNat (t.2 * x t.1.toNat)) = _
      rw [runOps_adds, Function.update_idem, Function.update_self, List.map_cons, List.sum_cons]
  · intro nOut hdef e
    rw [(C66_adjoint p nbc ds hc hdef _ x m₀ e).2.2 hs]
    clear e hdef
    generalize kernelEntries p nbc ds = es
    induction es generalizing m₀ with
    | nil => rfl
    | cons en es ih =>
      rw [List.flatMap_cons, runOps_append, ih]
      change _ = kernelAdjoint es x (en.2.foldl (fun g t =>
        Function.update g t.1.toNat (g t.1.toNat + t.2 * x en.1.toNat)) m₀)
      congr 1
      rw [adjOps, runOps, List.foldl_map]

end

/-! ## A worked case -/

/-- Two rows with one feature dimension, interpolated from 2 to 3 entries. -/
def exThreadDim : InterpDim := ⟨2, 3, 2, 3, 0, 0⟩
def exThreadParams : InterpParams ℚ := ⟨.linear, true, none⟩

/-- Row 0 to the first thread, row 1 to the second, an empty chunk to the third. -/
example : Covers 2 [(0, 1), (1, 2), (2, 2)] := rfl

example : kernelDefined exThreadParams (2 * 2) 6 2 [exThreadDim] = true := by decide +kernel

/-- The memory after a schedule, and whether all three threads have finished. -/
def exThreadRun (chunks : List (Nat × Nat)) (sched : List Nat) : Option (List ℚ × Bool) :=
  (Threads.run sched (parallelFor chunks (chunkOps exThreadParams [exThreadDim]
    (adjOps (· * ·) fun k => (k : ℚ))) fun _ => 0)).map fun s =>
      ((List.range 4).map s.mem, (List.range 3).all fun t => (s.step t).isNone)

/-- Turns of the two threads. -/
example : exThreadRun [(0, 1), (1, 2), (2, 2)] ((List.replicate 12 [0, 1]).flatten) =
    some ([1 / 2, 5 / 2, 5, 7], true) := by decide +kernel

example : exThreadRun [(0, 1), (1, 2), (2, 2)] (List.replicate 12 1 ++ List.replicate 12 0) =
    some ([1 / 2, 5 / 2, 5, 7], true) := by decide +kernel

/-- If both threads worked on row 0, updates would be lost: the race the theorem excludes. -/
example : exThreadRun [(0, 1), (0, 1)] ((List.replicate 12 [0, 1]).flatten) ≠
    exThreadRun [(0, 1), (0, 1)] (List.replicate 12 1 ++ List.replicate 12 0) := by decide +kernel

example : (parallelFor [(0, 1), (0, 1)] (chunkOps exThreadParams [exThreadDim]
    (fwdOps (· * ·) fun k => (k : ℚ))) fun _ => 0).Race :=
  ⟨0, 1, 0, true, true, by decide, rfl, rfl, Or.inl rfl⟩

end Verif
