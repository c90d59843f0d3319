import Verif.BatchNorm.Model
import Verif.Loss.ZeroVolume
import Verif.Conv.Roots

/-!
# Batch norm: local sums, the storing partition, broadcasting of statistics
-/

namespace Verif

/-! ## Lists -/

theorem getD_set {l : List Nat} {d k : Nat} (v : Nat) (hd : d < l.length) :
    (l.set d v).getD k 0 = if k = d then v else l.getD k 0 := by
  rw [List.getD_eq_getElem?_getD, List.getD_eq_getElem?_getD, List.getElem?_set]
  by_cases h : d = k
  · subst h
    rw [if_pos rfl, if_pos hd, if_pos rfl]
    rfl
  · rw [if_neg h, if_neg (Ne.symm h)]

theorem length_channelShape (n c : Nat) : (channelShape n c).length = n := by simp [channelShape]

theorem getD_channelShape {n c d : Nat} (hn : 2 ≤ n) (hd : d < n) :
    (channelShape n c).getD d 0 = if d = 1 then c else 1 := by
  rw [channelShape, getD_set _ (by rw [List.length_replicate]; omega)]
  split
  · rfl
  · simp [List.getD_eq_getElem?_getD, hd]

/-! ## Local sums -/

section
variable {R : Type} [AddCommMonoid R]

/-- State of the loop after the dimensions below `k`. -/
theorem localSums_loop (t : Tensor R) (k : Nat) (hk : k ≤ t.shape.length) :
    ((List.range k).foldl (fun x d => if d ≠ 1 then sumDim d x else x) t).dtype = t.dtype ∧
    ((List.range k).foldl (fun x d => if d ≠ 1 then sumDim d x else x) t).shape.length = t.shape.length ∧
    (∀ d, d < t.shape.length →
      ((List.range k).foldl (fun x d => if d ≠ 1 then sumDim d x else x) t).shape.getD d 0 =
        if d < k ∧ d ≠ 1 then 1 else t.shape.getD d 0) ∧
    ∀ i, i.length = t.shape.length → (∀ d, d < t.shape.length → k ≤ d ∨ d = 1 → i.getD d 0 < t.shape.getD d 0) →
      ((List.range k).foldl (fun x d => if d ≠ 1 then sumDim d x else x) t).val i =
        boxSum t.shape fun l =>
          if ∀ d, d < t.shape.length → k ≤ d ∨ d = 1 → l.getD d 0 = i.getD d 0 then t.val l else 0 := by
  induction k with
  | zero =>
    refine ⟨rfl, rfl, fun d _ => by simp, fun i hi hb => ?_⟩
    have hin : InBounds i t.shape := inBounds_iff.2 ⟨hi, fun j hj => hb j hj (Or.inl (Nat.zero_le _))⟩
    refine ((boxSum_congr fun l hl => ?_).trans (boxSum_pick hin t.val)).symm
    have : (∀ d, d < t.shape.length → 0 ≤ d ∨ d = 1 → l.getD d 0 = i.getD d 0) ↔ l = i := by
      constructor
      · intro h
        exact eq_of_getD (hl.length_eq.trans hi.symm) fun d hd =>
          h d (by rw [← hl.length_eq]; exact hd) (Or.inl (Nat.zero_le _))
      · rintro rfl d _ _
        rfl
    simp only [this]
  | succ k ih =>
    obtain ⟨h1, h2, h3, h4⟩ := ih (by omega)
    rw [List.range_succ, List.foldl_append]
    simp only [List.foldl_cons, List.foldl_nil]
    generalize hT : (List.range k).foldl (fun x d => if d ≠ 1 then sumDim d x else x) t = T at *
    by_cases hk1 : k = 1
    · rw [if_neg (by simpa using hk1)]
      refine ⟨h1, h2, fun d hd => ?_, fun i hi hb => ?_⟩
      · rw [h3 d hd]
        have : (d < k ∧ d ≠ 1) ↔ (d < k + 1 ∧ d ≠ 1) := by omega
        simp only [this]
      · rw [h4 i hi fun d hd ho => hb d hd (by omega)]
        refine boxSum_congr fun l _ => ?_
        have : (∀ d, d < t.shape.length → k ≤ d ∨ d = 1 → l.getD d 0 = i.getD d 0) ↔
            (∀ d, d < t.shape.length → k + 1 ≤ d ∨ d = 1 → l.getD d 0 = i.getD d 0) :=
          ⟨fun h d hd ho => h d hd (by omega), fun h d hd ho => h d hd (by omega)⟩
        simp only [this]
    · rw [if_pos hk1]
      refine ⟨h1, by simp [sumDim, h2], fun d hd => ?_, fun i hi hb => ?_⟩
      · show (T.shape.set k 1).getD d 0 = _
        rw [getD_set _ (by rw [h2]; omega), h3 d hd]
        by_cases hdk : d = k
        · rw [if_pos hdk, if_pos (by omega)]
        · rw [if_neg hdk]
          have : (d < k ∧ d ≠ 1) ↔ (d < k + 1 ∧ d ≠ 1) := by omega
          simp only [this]
      · show ∑ a ∈ Finset.range (T.shape.getD k 0), T.val (i.set k a) = _
        rw [h3 k (by omega), if_neg (by omega)]
        have step : ∀ a ∈ Finset.range (t.shape.getD k 0), T.val (i.set k a) =
            boxSum t.shape fun l => if l.getD k 0 = a ∧
              ∀ d, d < t.shape.length → k + 1 ≤ d ∨ d = 1 → l.getD d 0 = i.getD d 0 then t.val l else 0 := by
          intro a ha
          have ha := Finset.mem_range.1 ha
          have hg : ∀ d, (i.set k a).getD d 0 = if d = k then a else i.getD d 0 :=
            fun d => getD_set a (by omega)
          rw [h4 (i.set k a) (by simpa using hi) fun d hd ho => by
            rw [hg]
            split
            · next e => rw [e]; exact ha
            · exact hb d hd (by omega)]
          refine boxSum_congr fun l _ => ?_
          have : (∀ d, d < t.shape.length → k ≤ d ∨ d = 1 → l.getD d 0 = (i.set k a).getD d 0) ↔
              (l.getD k 0 = a ∧ ∀ d, d < t.shape.length → k + 1 ≤ d ∨ d = 1 → l.getD d 0 = i.getD d 0) := by
            constructor
            · intro h
              refine ⟨by rw [h k (by omega) (by omega), hg, if_pos rfl], fun d hd ho => ?_⟩
              rw [h d hd (by omega), hg, if_neg (by omega)]
            · rintro ⟨e, h⟩ d hd ho
              rw [hg]
              split
              · next e' => rw [e', e]
              · exact h d hd (by omega)
          simp only [this]
        rw [Finset.sum_congr rfl step, ← boxSum_sum]
        refine boxSum_congr fun l hl => ?_
        have hlk : l.getD k 0 < t.shape.getD k 0 := (inBounds_iff.1 hl).2 k (by omega)
        by_cases hc : ∀ d, d < t.shape.length → k + 1 ≤ d ∨ d = 1 → l.getD d 0 = i.getD d 0
        · rw [if_pos hc, Finset.sum_eq_single (l.getD k 0)]
          · rw [if_pos ⟨rfl, hc⟩]
          · intro b _ hb'
            rw [if_neg fun h => hb' h.1.symm]
          · intro h
            exact absurd (Finset.mem_range.2 hlk) h
        · rw [if_neg hc]
          exact Finset.sum_eq_zero fun a _ => if_neg fun h => hc h.2

/-- The local sums: one for every channel. -/
theorem localSums_spec (t : Tensor R) {n : Nat} (hn : t.shape.length = n) (h2 : 2 ≤ n) :
    (localSums n t).dtype = t.dtype ∧ (localSums n t).shape = channelShape n (t.shape.getD 1 0) ∧
    ∀ i, i.length = n → i.getD 1 0 < t.shape.getD 1 0 →
      (localSums n t).val i = boxSum t.shape fun l => if l.getD 1 0 = i.getD 1 0 then t.val l else 0 := by
  subst hn
  obtain ⟨h1, hl, h3, h4⟩ := localSums_loop t t.shape.length (Nat.le_refl _)
  refine ⟨h1, eq_of_getD (hl.trans (length_channelShape _ _).symm) fun d hd => ?_, fun i hi hb => ?_⟩
  · have hd' : d < t.shape.length := by
      have e : (localSums t.shape.length t).shape.length = t.shape.length := hl
      omega
    have e : (localSums t.shape.length t).shape.getD d 0 = _ := h3 d hd'
    rw [e, getD_channelShape h2 hd']
    by_cases h : d = 1
    · rw [if_neg (by omega), if_pos h, h]
    · rw [if_pos ⟨hd', h⟩, if_neg h]
  · have e : (localSums t.shape.length t).val i = _ := h4 i hi fun d hd ho => by
      obtain rfl : d = 1 := by omega
      exact hb
    rw [e]
    refine boxSum_congr fun l _ => ?_
    have : (∀ d, d < t.shape.length → t.shape.length ≤ d ∨ d = 1 → l.getD d 0 = i.getD d 0) ↔
        l.getD 1 0 = i.getD 1 0 :=
      ⟨fun h => h 1 (by omega) (Or.inr rfl), fun h d hd ho => by
        obtain rfl : d = 1 := by omega
        exact h⟩
    simp only [this]

end

example : (localSums 3 (⟨[2, 2, 3], .float64, fun i => (i.getD 0 0 * 100 + i.getD 1 0 * 10 + i.getD 2 0 : Nat)⟩ :
    Tensor Int)).val [0, 1, 0] = 10 + 11 + 12 + 110 + 111 + 112 := by decide

/-! ## The storing partition -/

section
variable {P : Cart}

/-- Position of the storing worker of channel block `c`. -/
def storePos (n c : Nat) : List Nat := (List.replicate n 0).set 1 c

theorem getD_storePos {n c d : Nat} (hn : 2 ≤ n) : (storePos n c).getD d 0 = if d = 1 then c else 0 := by
  rw [storePos, getD_set _ (by rw [List.length_replicate]; omega)]
  split
  · rfl
  · rw [List.getD_eq_getElem?_getD, List.getElem?_replicate]
    split <;> rfl

theorem storePos_inBounds {S : List Nat} {c : Nat} (hn : 2 ≤ S.length) (hp : ∀ n ∈ S, 0 < n)
    (hc : c < S.getD 1 0) : InBounds (storePos S.length c) S := by
  refine inBounds_iff.2 ⟨by simp [storePos], fun j hj => ?_⟩
  rw [getD_storePos hn]
  split
  · next e => rw [e]; exact hc
  · rw [List.getD_eq_getElem?_getD, List.getElem?_eq_getElem hj]
    exact hp _ (List.getElem_mem hj)

/-- What is known of `P_sum`: its workers are those in the first place of all dimensions but the second, in
the order of the second, and keep their positions. -/
structure SumPart (P Q : Cart) : Prop where
  wf : Q.WF
  root : Q.root = P.root
  shape : Q.shape = channelShape P.shape.length (P.shape.getD 1 0)
  sub : ∀ r ∈ Q.members, r ∈ P.members
  coord : ∀ r ∈ Q.members, Q.coord r = P.coord r
  pos : ∀ r ∈ P.members, r ∈ Q.members ↔ ∀ d, d < P.shape.length → d ≠ 1 → (P.coord r).getD d 0 = 0

theorem channelShape_pos {n c : Nat} (hc : 0 < c) : ∀ m ∈ channelShape n c, 0 < m := by
  intro m hm
  rcases List.mem_or_eq_of_mem_set hm with h | h
  · rw [List.eq_of_mem_replicate h]; exact Nat.one_pos
  · omega

theorem prod_channelShape {n c : Nat} (hn : 2 ≤ n) : (channelShape n c).prod = c := by
  obtain ⟨m, rfl⟩ : ∃ m, n = m + 2 := ⟨n - 2, by omega⟩
  show ((List.replicate (m + 2) 1).set 1 c).prod = c
  rw [List.replicate_succ, List.replicate_succ, List.set_cons_succ, List.set_cons_zero]
  simp

theorem sumPartition_spec (hP : P.WF) (hn : 2 ≤ P.shape.length) :
    ∃ Q, sumPartition P = some Q ∧ SumPart P Q := by
  set n := P.shape.length with hnl
  set K := P.shape.getD 1 0 with hK
  have hKpos : 0 < K := by
    rw [hK, List.getD_eq_getElem?_getD, List.getElem?_eq_getElem (by omega)]
    exact hP.pos _ (List.getElem_mem _)
  have hin : ∀ c < K, InBounds (storePos n c) P.shape := fun c hc => storePos_inBounds hn hP.pos hc
  have hrank : ∀ c < K, workerLayout P.shape (storePos n c) = flatC P.shape (storePos n c) := fun c hc => by
    rw [(C04_rank _ _ (hin c hc)).2, cartesianIndexC_eq_flatC (hin c hc).length_eq]
  have hlt : ∀ c < K, flatC P.shape (storePos n c) < P.members.length := fun c hc => by
    rw [hP.size]; exact flatC_lt (hin c hc)
  have hst : storageWorkers P = (List.range K).map fun c => flatC P.shape (storePos n c) :=
    List.map_congr_left fun c hc => hrank c (List.mem_range.1 hc)
  have hinj : ∀ c < K, ∀ d < K, flatC P.shape (storePos n c) = flatC P.shape (storePos n d) → c = d := by
    intro c hc d hd e
    have := congrArg (fun l => l.getD 1 0) (flatC_inj (hin c hc) (hin d hd) e)
    simpa only [getD_storePos hn, if_true] using this
  have hnd : (storageWorkers P).Nodup := by
    rw [hst]
    refine List.Nodup.map_on ?_ List.nodup_range
    intro c hc d hd e
    exact hinj c (List.mem_range.1 hc) d (List.mem_range.1 hd) e
  have hr : ∀ r ∈ storageWorkers P, r < P.members.length := by
    rw [hst]
    intro r hr
    obtain ⟨c, hc, rfl⟩ := List.mem_map.1 hr
    exact hlt c (List.mem_range.1 hc)
  let mem : Nat → Nat := fun c => P.members.getD (flatC P.shape (storePos n c)) 0
  have hmem : ∀ c < K, mem c ∈ P.members ∧ P.coord (mem c) = storePos n c := by
    intro c hc
    have e : mem c = P.members[flatC P.shape (storePos n c)]'(hlt c hc) := by
      show P.members.getD _ 0 = _
      rw [List.getD_eq_getElem?_getD, List.getElem?_eq_getElem (hlt c hc)]
      rfl
    refine ⟨by rw [e]; exact List.getElem_mem _, ?_⟩
    rw [Cart.coord, e, hP.nodup.idxOf_getElem, getCoords_flatC (hin c hc)]
  let Q : Cart := ⟨(List.range K).map mem, channelShape n K, P.root⟩
  have hmi : ∀ c < K, ∀ d < K, mem c = mem d → c = d := by
    intro c hc d hd e
    have := congrArg (fun l => l.getD 1 0) (((hmem c hc).2.symm.trans (congrArg P.coord e)).trans (hmem d hd).2)
    simpa only [getD_storePos hn, if_true] using this
  have hQ : Q.WF := by
    refine ⟨?_, by simp [Q, prod_channelShape hn], channelShape_pos hKpos⟩
    refine List.Nodup.map_on ?_ List.nodup_range
    intro c hc d hd e
    exact hmi c (List.mem_range.1 hc) d (List.mem_range.1 hd) e
  have hshape : Q.shape.length = n := length_channelShape _ _
  have hcoord : ∀ c < K, Q.coord (mem c) = storePos n c := by
    intro c hc
    have hb : InBounds (storePos n c) Q.shape := by
      have := storePos_inBounds (S := Q.shape) (c := c) (by omega) hQ.pos (by
        show c < (channelShape n K).getD 1 0
        rw [getD_channelShape hn (by omega), if_pos rfl]; exact hc)
      rwa [hshape] at this
    have hi : Q.members.idxOf (mem c) = c := by
      have hc' : c < Q.members.length := by simpa [Q] using hc
      have e : Q.members[c] = mem c := by simp [Q]
      rw [← e, hQ.nodup.idxOf_getElem]
    have hQb : InBounds (Q.coord (mem c)) Q.shape :=
      coords_inBounds hQ (List.mem_map.2 ⟨c, List.mem_range.2 hc, rfl⟩)
    have hQl : (Q.coord (mem c)).length = n := hQb.length_eq.trans hshape
    -- all entries but the second are 0, the second follows from the rank
    have hz : ∀ d, d < n → d ≠ 1 → (Q.coord (mem c)).getD d 0 = 0 := by
      intro d hd h1
      have := (inBounds_iff.1 hQb).2 d (by omega)
      have e : Q.shape.getD d 0 = 1 := by
        show (channelShape n K).getD d 0 = 1
        rw [getD_channelShape hn hd, if_neg h1]
      omega
    have hsp : ∀ k, k < K → InBounds (storePos n k) Q.shape := by
      intro k hk
      have := storePos_inBounds (S := Q.shape) (c := k) (by omega) hQ.pos (by
        show k < (channelShape n K).getD 1 0
        rw [getD_channelShape hn (by omega), if_pos rfl]; exact hk)
      rwa [hshape] at this
    have hflat : ∀ k, flatC Q.shape (storePos n k) = k := by
      intro k
      obtain ⟨m, hm⟩ : ∃ m, n = m + 2 := ⟨n - 2, by omega⟩
      have hzero : ∀ m, flatC (List.replicate m 1) (List.replicate m 0) = 0 := by
        intro m
        induction m with
        | zero => rfl
        | succ m ih => simp [List.replicate_succ, flatC, ih]
      show flatC ((List.replicate n 1).set 1 K) ((List.replicate n 0).set 1 k) = k
      rw [hm]
      simp [List.replicate_succ, flatC, hzero]
    rw [Cart.coord, hi]
    conv_lhs => rw [← hflat c]
    exact getCoords_flatC (hsp c hc)
  refine ⟨Q, ?_, hQ, rfl, rfl, ?_, ?_, ?_⟩
  · have e : (storageWorkers P).map (fun r => P.members.getD r 0) = (List.range K).map mem := by
      rw [hst, List.map_map]; rfl
    have hc : (∀ m ∈ channelShape n K, 0 < m) ∧ (channelShape n K).prod = ((List.range K).map mem).length :=
      ⟨channelShape_pos hKpos, by simp [prod_channelShape hn]⟩
    rw [sumPartition, createInclusive, groupIncl, if_pos ⟨hnd, hr⟩, Option.map_some, Option.bind_some, e,
      createCartesian]
    exact if_pos hc
  · intro r hr
    obtain ⟨c, hc, rfl⟩ := List.mem_map.1 hr
    exact (hmem c (List.mem_range.1 hc)).1
  · intro r hr
    obtain ⟨c, hc, rfl⟩ := List.mem_map.1 hr
    rw [hcoord c (List.mem_range.1 hc), (hmem c (List.mem_range.1 hc)).2]
  · intro r hr
    constructor
    · intro hq d hd h1
      obtain ⟨c, hc, rfl⟩ := List.mem_map.1 hq
      rw [(hmem c (List.mem_range.1 hc)).2, getD_storePos hn, if_neg h1]
    · intro hz
      have hb := coords_inBounds hP hr
      have hb' : InBounds (P.coord r) P.shape := hb
      have hc : (P.coord r).getD 1 0 < K := (inBounds_iff.1 hb').2 1 (by omega)
      have e : P.coord r = storePos n ((P.coord r).getD 1 0) := by
        refine eq_of_getD (by simpa [storePos] using hb'.length_eq) fun d hd => ?_
        rw [getD_storePos hn]
        split
        · next e => rw [e]
        · next h1 => exact hz d (by have := hb'.length_eq; omega) h1
      refine List.mem_map.2 ⟨(P.coord r).getD 1 0, List.mem_range.2 hc, ?_⟩
      have h1 := (hmem _ hc).2
      rw [← e] at h1
      have hidx : P.members.idxOf (mem ((P.coord r).getD 1 0)) = P.members.idxOf r := by
        have ha := (getCoords_spec (shape := P.shape) (r := P.members.idxOf (mem ((P.coord r).getD 1 0)))
          (by rw [← hP.size]; exact List.idxOf_lt_length_of_mem (hmem _ hc).1)).2
        have hb := (getCoords_spec (shape := P.shape) (r := P.members.idxOf r)
          (by rw [← hP.size]; exact List.idxOf_lt_length_of_mem hr)).2
        have h1' : getCoords P.shape (P.members.idxOf (mem ((P.coord r).getD 1 0))) =
          getCoords P.shape (P.members.idxOf r) := h1
        rw [← ha, ← hb, h1']
      exact (List.idxOf_inj (hmem _ hc).1).1 hidx

end

end Verif
