import Verif.Interp.Dim

/-!
# Interpolation: the local layer on the selected cells
-/

namespace Verif

section
variable {K : Type} [Field K] [LinearOrder K] [FloorRing K]

omit [LinearOrder K] [FloorRing K] in
theorem termSum_congr {ts : List (List (Int × K))} {f f' : List Int → K}
    (h : ∀ l : List Int, l.length = ts.length →
      (∀ j, j < ts.length → ∃ t ∈ ts.getD j [], t.1 = l.getD j 0) → f l = f' l) :
    termSum ts f = termSum ts f' := by
  induction ts generalizing f f' with
  | nil => exact h [] rfl (by simp)
  | cons d ds ih =>
    unfold termSum
    congr 1
    apply List.map_congr_left
    intro t ht
    congr 1
    apply ih
    intro l hl hm
    refine h (t.1 :: l) (by simp [hl]) fun j hj => ?_
    cases j with
    | zero => exact ⟨t, by simpa using ht, rfl⟩
    | succ j => simpa using hm j (by simpa using hj)

/-- Interpolating in all dimensions. -/
theorem termSum_interp (p : InterpParams K) (ds : List InterpDim) (os : List Nat) (F : List Nat → K)
    (hlen : os.length = ds.length)
    (h : ∀ j, j < ds.length → ∀ f : Nat → K,
      ((dimTerms p (ds.getD j default) (os.getD j 0)).map fun t =>
        t.2 * f (t.1 + (ds.getD j default).io).toNat).sum =
        torchInterp1 p (ds.getD j default).gi (ds.getD j default).go f ((ds.getD j default).oo + os.getD j 0)) :
    termSum (outputTerms p ds os) (fun l => F (List.zipWith (fun d (i : Int) => (i + d.io).toNat) ds l)) =
      torchInterpN p (ds.map InterpDim.gi) (ds.map InterpDim.go) F
        (List.zipWith (fun d o => d.oo + o) ds os) := by
  induction ds generalizing os F with
  | nil => simp [outputTerms, termSum, torchInterpN]
  | cons d ds ih =>
    cases os with
    | nil => simp at hlen
    | cons o os =>
      simp only [outputTerms, termSum, List.map_cons, List.zipWith_cons_cons, torchInterpN]
      have h0 := h 0 (by simp) fun i => torchInterpN p (ds.map InterpDim.gi) (ds.map InterpDim.go)
        (fun l => F (i :: l)) (List.zipWith (fun d o => d.oo + o) ds os)
      simp only [List.getD_cons_zero] at h0
      rw [← h0]
      congr 1
      apply List.map_congr_left
      intro t _
      congr 1
      exact ih os (fun l => F ((t.1 + d.io).toNat :: l)) (by simpa using hlen) fun j hj f => by
        simpa using h (j + 1) (by simpa using hj) f

omit [LinearOrder K] [FloorRing K] in
theorem flatC_two (nb nc b c : Nat) (ns l : List Nat) :
    flatC (nb :: nc :: ns) (b :: c :: l) = flatC (nb * nc :: ns) ((b * nc + c) :: l) := by
  simp only [flatC, List.prod_cons]
  ring

theorem interpDims_length (xs : List Int) (gx ys gy ishape oshape : List Nat) :
    (interpDims xs gx ys gy ishape oshape).length = ishape.length - 2 := by simp [interpDims]

theorem interpDims_getD {xs : List Int} {gx ys gy ishape oshape : List Nat} {j : Nat}
    (hj : j < ishape.length - 2) : (interpDims xs gx ys gy ishape oshape).getD j default =
    ⟨gx.getD (j + 2) 0, gy.getD (j + 2) 0, ishape.getD (j + 2) 0, oshape.getD (j + 2) 0,
      xs.getD (j + 2) 0, ys.getD (j + 2) 0⟩ := by
  unfold interpDims
  rw [getD_map_range _ _ hj]

theorem drop2_eq {α : Type} {ds : List α} {f : α → Nat} {g : List Nat} (a : α) (hl : ds.length = g.length - 2)
    (h : ∀ j, j < ds.length → f (ds.getD j a) = g.getD (j + 2) 0) : ds.map f = g.drop 2 := by
  apply eq_of_getD
  · simp [hl]
  · intro j hj
    rw [List.length_map] at hj
    have := h j hj
    rw [List.getD_eq_getElem _ _ hj] at this
    rw [List.getD_eq_getElem _ _ (by simpa using hj), List.getElem_map, this]
    rw [List.getD_eq_getElem _ _ (by omega), List.getD_eq_getElem _ _ (by rw [List.length_drop]; omega),
      List.getElem_drop]
    congr 1
    omega

theorem prod_pos_of_pos {l : List Nat} (h : ∀ n ∈ l, 0 < n) : 0 < l.prod := by
  induction l with
  | nil => simp
  | cons a l ih =>
    rw [List.prod_cons]
    exact Nat.mul_pos (h a (List.mem_cons_self ..)) (ih fun n hn => h n (List.mem_cons_of_mem _ hn))

variable [IsStrictOrderedRing K]

/-- The interpolation of the selected cells gives the outputs of the worker. -/
theorem interpForward_spec (p : InterpParams K) {xs : List Int} {gx ys ye gy : List Nat} {input : Tensor K}
    {X : List Nat → K} (hacc : kernelAccepts input.dtype input.shape.length = true)
    (lgx : gx.length = input.shape.length) (lys : ys.length = input.shape.length)
    (lye : ye.length = input.shape.length) (lgy : gy.length = input.shape.length)
    (hle : ∀ j, j < input.shape.length → ys.getD j 0 ≤ ye.getD j 0)
    (h01 : ∀ j, j < 2 → input.shape.getD j 0 = ye.getD j 0 - ys.getD j 0 ∧ xs.getD j 0 = (ys.getD j 0 : Nat))
    (hne : p.mode = .linear → ∀ j, j + 2 < input.shape.length → ys.getD (j + 2) 0 < ye.getD (j + 2) 0)
    (hsel : (∀ j, j + 2 < input.shape.length → ys.getD (j + 2) 0 < ye.getD (j + 2) 0) →
      ∀ j, j + 2 < input.shape.length →
        let d : InterpDim := ⟨gx.getD (j + 2) 0, gy.getD (j + 2) 0, input.shape.getD (j + 2) 0,
          ye.getD (j + 2) 0 - ys.getD (j + 2) 0, xs.getD (j + 2) 0, ys.getD (j + 2) 0⟩
        ∃ fac, DimSel p d fac (ye.getD (j + 2) 0) ∧ torchStep p d.gi d.go = fac ∧
          (p.mode = .linear → ∀ o, o < d.lo → Distinct p d.gi d.go (d.oo + o)))
    (hX : (∀ j, j + 2 < input.shape.length → ys.getD (j + 2) 0 < ye.getD (j + 2) 0) →
      ∀ l, InBounds l input.shape → input.val l =
        X ((List.range input.shape.length).map fun j => ((l.getD j 0 : Int) + xs.getD j 0).toNat)) :
    ∃ y, interpForward p xs gx ys ye gy input = some y ∧ y.shape = List.zipWith (· - ·) ye ys ∧
      y.dtype = input.dtype ∧ ∀ o, InBounds o y.shape → y.val o = torchInterp p gx gy X (shiftBy ys o) := by
  have h35 : 3 ≤ input.shape.length := by
    unfold kernelAccepts at hacc
    simp only [Bool.decide_and, Bool.and_eq_true, decide_eq_true_eq] at hacc
    exact hacc.2.1
  have los : (List.zipWith (· - ·) ye ys).length = input.shape.length := by simp [lys, lye]
  have gos : ∀ j, j < input.shape.length →
      (List.zipWith (· - ·) ye ys).getD j 0 = ye.getD j 0 - ys.getD j 0 := fun j hj =>
    getD_zipWith_sub (by rw [lye]; exact hj) (by rw [lys]; exact hj)
  -- the dimensions
  have hds : ∀ j, j + 2 < input.shape.length →
      (interpDims xs gx ys gy input.shape (List.zipWith (· - ·) ye ys)).getD j default =
      ⟨gx.getD (j + 2) 0, gy.getD (j + 2) 0, input.shape.getD (j + 2) 0,
          ye.getD (j + 2) 0 - ys.getD (j + 2) 0, xs.getD (j + 2) 0, ys.getD (j + 2) 0⟩ := by
    intro j hj
    rw [interpDims_getD (by omega), gos (j + 2) hj]
  have hdl : (interpDims xs gx ys gy input.shape (List.zipWith (· - ·) ye ys)).length =
      input.shape.length - 2 := interpDims_length ..
  have elo : (interpDims xs gx ys gy input.shape (List.zipWith (· - ·) ye ys)).map InterpDim.lo =
      (List.zipWith (· - ·) ye ys).drop 2 := interpDims_lo los.symm
  have eli : (interpDims xs gx ys gy input.shape (List.zipWith (· - ·) ye ys)).map InterpDim.li =
      input.shape.drop 2 := interpDims_li
  have egi : (interpDims xs gx ys gy input.shape (List.zipWith (· - ·) ye ys)).map InterpDim.gi = gx.drop 2 :=
    drop2_eq default (by rw [hdl, lgx]) fun j hj => by rw [hds j (by rw [hdl] at hj; omega)]
  have ego : (interpDims xs gx ys gy input.shape (List.zipWith (· - ·) ye ys)).map InterpDim.go = gy.drop 2 :=
    drop2_eq default (by rw [hdl, lgy]) fun j hj => by rw [hds j (by rw [hdl] at hj; omega)]
  -- shapes as lists
  obtain ⟨nb, nc, lis, hsh⟩ : ∃ nb nc lis, input.shape = nb :: nc :: lis := by
    match hs : input.shape, h35 with
    | nb :: nc :: lis, _ => exact ⟨nb, nc, lis, rfl⟩
  obtain ⟨mb, mc, los', hos⟩ : ∃ mb mc los', List.zipWith (· - ·) ye ys = mb :: mc :: los' := by
    match hs : List.zipWith (· - ·) ye ys, los with
    | [], h => rw [← h] at h35; simp at h35
    | [_], h => rw [← h] at h35; simp at h35
    | nb :: nc :: lis, _ => exact ⟨nb, nc, lis, rfl⟩
  have hmb : mb = nb := by
    have h1 := gos 0 (by omega)
    have h2 := (h01 0 (by omega)).1
    rw [hos] at h1
    rw [hsh] at h2
    simp only [List.getD_cons_zero] at h1 h2
    omega
  have hmc : mc = nc := by
    have h1 := gos 1 (by omega)
    have h2 := (h01 1 (by omega)).1
    rw [hos] at h1
    rw [hsh] at h2
    simp only [List.getD_cons_succ, List.getD_cons_zero] at h1 h2
    omega
  subst hmb hmc
  have hnbc : input.shape.getD 0 0 * input.shape.getD 1 0 = mb * mc := by rw [hsh]; rfl
  replace elo := elo.trans (show (List.zipWith (· - ·) ye ys).drop 2 = los' by rw [hos]; rfl)
  replace eli := eli.trans (show input.shape.drop 2 = lis by rw [hsh]; rfl)
  have hlosl : los'.length = lis.length := by
    have := los
    rw [hos, hsh] at this
    simpa using this
  have hlis : input.shape.length = lis.length + 2 := by rw [hsh]; rfl
  have hdl' : (interpDims xs gx ys gy input.shape (List.zipWith (· - ·) ye ys)).length = lis.length := by
    rw [hdl, hlis]; omega
  -- outputs are nonempty as soon as there is an index
  have hnonempty : ∀ o, InBounds o los' → ∀ j, j + 2 < input.shape.length →
      ys.getD (j + 2) 0 < ye.getD (j + 2) 0 := by
    intro o ho j hj
    have := (inBounds_iff.1 ho).2 j (by rw [hlosl]; omega)
    have h1 := gos (j + 2) hj
    rw [hos] at h1
    simp only [List.getD_cons_succ] at h1
    omega
  have hol : ∀ o, InBounds o los' → ∀ j, j + 2 < input.shape.length →
      o.getD j 0 < ye.getD (j + 2) 0 - ys.getD (j + 2) 0 := by
    intro o ho j hj
    have := (inBounds_iff.1 ho).2 j (by rw [hlosl]; omega)
    have h1 := gos (j + 2) hj
    rw [hos] at h1
    simp only [List.getD_cons_succ] at h1
    omega
  -- terms stay inside
  have hin : ∀ o, InBounds o los' → ∀ l : List Int,
      l.length = (outputTerms p (interpDims xs gx ys gy input.shape (List.zipWith (· - ·) ye ys)) o).length →
      (∀ j, j < (outputTerms p (interpDims xs gx ys gy input.shape (List.zipWith (· - ·) ye ys)) o).length →
        ∃ t ∈ (outputTerms p (interpDims xs gx ys gy input.shape (List.zipWith (· - ·) ye ys)) o).getD j [],
          t.1 = l.getD j 0) →
      ∃ ln, InBounds ln lis ∧ l = ln.map fun i : Nat => (i : Int) := by
    intro o ho l hl hm
    have hoD : o.length = (interpDims xs gx ys gy input.shape (List.zipWith (· - ·) ye ys)).length := by
      rw [ho.length_eq, hlosl, hdl']
    rw [outputTerms_length p _ o hoD, hdl'] at hl hm
    have hb : ∀ j, j < lis.length → 0 ≤ l.getD j 0 ∧ l.getD j 0 < lis.getD j 0 := by
      intro j hj
      obtain ⟨t, ht, e⟩ := hm j hj
      rw [outputTerms_getD p _ o hoD (by rw [hdl']; exact hj), hds j (by omega)] at ht
      obtain ⟨fac, hs, -, -⟩ := hsel (hnonempty o ho) j (by omega)
      have hb := hs.bounds (hol o ho j (by omega)) t ht
      rw [e] at hb
      dsimp only at hb
      rw [hsh] at hb
      simpa using hb
    refine ⟨l.map Int.toNat, ?_, ?_⟩
    · rw [inBounds_iff]
      refine ⟨by simp [hl], fun j hj => ?_⟩
      have := hb j hj
      rw [List.getD_eq_getElem _ _ (by simpa [hl] using hj), List.getElem_map]
      rw [List.getD_eq_getElem _ _ (by rw [hl]; exact hj)] at this
      omega
    · rw [List.map_map]
      conv_lhs => rw [← List.map_id l]
      apply List.map_congr_left
      intro i hi
      obtain ⟨j, hj, rfl⟩ := List.mem_iff_getElem.1 hi
      have := (hb j (by rw [← hl]; exact hj)).1
      rw [List.getD_eq_getElem _ _ hj] at this
      simp only [id, Function.comp]
      omega
  have hflat : ∀ c ln, c < mb * mc → InBounds ln lis →
      hornerIdx (c : Int) lis (ln.map fun i : Nat => (i : Int)) = (flatC (mb * mc :: lis) (c :: ln) : Nat) ∧
      flatC (mb * mc :: lis) (c :: ln) < (mb :: mc :: lis).prod := by
    intro c ln hc hln
    refine ⟨hornerIdx_eq c hln.length_eq _, ?_⟩
    have := flatC_lt (shape := mb * mc :: lis) (idx := c :: ln) ⟨hc, hln⟩
    simp only [List.prod_cons] at this ⊢
    rw [← Nat.mul_assoc]
    exact this
  have hdef : kernelDefined p input.shape.prod (List.zipWith (· - ·) ye ys).prod
      (input.shape.getD 0 0 * input.shape.getD 1 0)
      (interpDims xs gx ys gy input.shape (List.zipWith (· - ·) ye ys)) = true := by
    rw [kernelDefined_iff]
    constructor
    · intro hm
      rw [elo]
      have hpos : ∀ n ∈ los', 0 < n := by
        intro n hn
        obtain ⟨j, hj, rfl⟩ := List.mem_iff_getElem.1 hn
        have h1 := gos (j + 2) (by omega)
        rw [hos] at h1
        simp only [List.getD_cons_succ] at h1
        rw [List.getD_eq_getElem _ _ hj] at h1
        have := hne hm j (by omega)
        omega
      exact (prod_pos_of_pos hpos).ne'
    · intro e he
      obtain ⟨c, o, hc, ho, rfl⟩ := mem_kernelEntries.1 he
      rw [hnbc] at hc
      rw [elo] at ho
      refine ⟨fun d hd => ?_, ?_, fun t ht => ?_⟩
      · obtain ⟨j, hj, rfl⟩ := List.mem_iff_getElem.1 hd
        rw [hdl] at hj
        obtain ⟨fac, hs, -, -⟩ := hsel (hnonempty o ho) j (by omega)
        have := hds j (by omega)
        rw [List.getD_eq_getElem _ _ (by rw [hdl]; exact hj)] at this
        rw [this]
        have := hs.facE
        dsimp only at this ⊢
        rw [this]
        rfl
      · unfold entryOf
        dsimp only
        rw [elo, hornerIdx_eq c ho.length_eq (mb * mc), hos]
        have := flatC_lt (shape := mb * mc :: los') (idx := c :: o) ⟨hc, ho⟩
        simp only [List.prod_cons] at this ⊢
        rw [← Nat.mul_assoc]
        exact ⟨Int.natCast_nonneg _, by exact_mod_cast this⟩
      · unfold entryOf at ht
        dsimp only at ht
        obtain ⟨u, hu, rfl⟩ := List.mem_map.1 ht
        obtain ⟨u1, u2⟩ := mem_cornerTerms hu
        obtain ⟨ln, hln, e⟩ := hin o ho u.1 u1 u2
        dsimp only
        rw [eli, e, (hflat c ln hc hln).1, hsh]
        exact ⟨Int.natCast_nonneg _, by exact_mod_cast (hflat c ln hc hln).2⟩
  have hcond : (kernelAccepts input.dtype input.shape.length &&
      kernelDefined p input.shape.prod (List.zipWith (· - ·) ye ys).prod
      (input.shape.getD 0 0 * input.shape.getD 1 0)
      (interpDims xs gx ys gy input.shape (List.zipWith (· - ·) ye ys))) = true := by rw [hacc, hdef]; rfl
  have hfwd : interpForward p xs gx ys ye gy input = some ⟨List.zipWith (· - ·) ye ys, input.dtype, fun l =>
      kernelForward (kernelEntries p (input.shape.getD 0 0 * input.shape.getD 1 0)
        (interpDims xs gx ys gy input.shape (List.zipWith (· - ·) ye ys)))
        (contiguous input.shape input.val) (fun _ => 0) (flatC (List.zipWith (· - ·) ye ys) l)⟩ := by
    unfold interpForward
    exact if_pos hcond
  refine ⟨_, hfwd, rfl, rfl, fun o ho => ?_⟩
  dsimp only at ho ⊢
  rw [hos] at ho
  obtain ⟨b, c, os, rfl⟩ : ∃ b c os, o = b :: c :: os := by
    match o, ho with
    | b :: c :: os, _ => exact ⟨b, c, os, rfl⟩
  obtain ⟨hb, hc, hos'⟩ : b < mb ∧ c < mc ∧ InBounds os los' := ho
  have hbc : b * mc + c < mb * mc := by
    calc b * mc + c < b * mc + mc := by omega
      _ = (b + 1) * mc := by ring
      _ ≤ mb * mc := Nat.mul_le_mul_right _ hb
  have hpos : flatC (List.zipWith (· - ·) ye ys) (b :: c :: os) =
      flatC (input.shape.getD 0 0 * input.shape.getD 1 0 ::
        (interpDims xs gx ys gy input.shape (List.zipWith (· - ·) ye ys)).map InterpDim.lo)
        ((b * mc + c) :: os) := by
    rw [elo, hnbc, hos, flatC_two]
  rw [hpos, kernelForward_entry p _ _ _ _ (by rw [hnbc]; exact hbc) (by rw [elo]; exact hos')]
  have hosl : os.length = (interpDims xs gx ys gy input.shape (List.zipWith (· - ·) ye ys)).length := by
    rw [hos'.length_eq, hlosl, hdl']
  -- the shifted output index
  obtain ⟨yb, yc, yss, hys⟩ : ∃ yb yc yss, ys = yb :: yc :: yss := by
    match hs : ys, lys with
    | [], h => rw [← h] at h35; simp at h35
    | [_], h => rw [← h] at h35; simp at h35
    | a :: b :: l, _ => exact ⟨a, b, l, rfl⟩
  have hx0 : xs.getD 0 0 = (yb : Int) := by rw [(h01 0 (by omega)).2, hys]; rfl
  have hx1 : xs.getD 1 0 = (yc : Int) := by rw [(h01 1 (by omega)).2, hys]; rfl
  have hsh2 : shiftBy ys (b :: c :: os) = (yb + b) :: (yc + c) :: shiftBy yss os := by rw [hys]; rfl
  rw [hsh2, torchInterp, ← egi, ← ego]
  have hzip : shiftBy yss os = List.zipWith (fun (d : InterpDim) o => d.oo + o)
      (interpDims xs gx ys gy input.shape (List.zipWith (· - ·) ye ys)) os := by
    have hyl : yss.length = lis.length := by
      have := lys
      rw [hys, hlis] at this
      simpa using this
    have hol' : os.length = lis.length := by rw [hosl, hdl']
    apply eq_of_getD
    · rw [length_shiftBy (by rw [hol', hyl]), hyl]
      simp [hdl', hol']
    · intro j hj
      rw [length_shiftBy (by rw [hol', hyl]), hyl] at hj
      rw [getD_shiftBy (by rw [hyl]; exact hj) (by rw [hol']; exact hj),
        List.getD_eq_getElem (List.zipWith _ _ _) _ (by simp [hdl', hol', hj]), List.getElem_zipWith]
      have := hds j (by omega)
      rw [List.getD_eq_getElem _ _ (by rw [hdl']; exact hj)] at this
      have hyj : ys.getD (j + 2) 0 = yss.getD j 0 := by rw [hys]; rfl
      rw [this, ← hyj]
      dsimp only
      rw [List.getD_eq_getElem os _ (by rw [hol']; exact hj)]
  rw [hzip, ← termSum_interp p _ os (fun l => X ((yb + b) :: (yc + c) :: l)) hosl]
  · apply termSum_congr
    intro l hl hm
    obtain ⟨ln, hln, rfl⟩ := hin os hos' l hl hm
    have hlnl : ln.length = lis.length := hln.length_eq
    have hbl : InBounds (b :: c :: ln) input.shape := by rw [hsh]; exact ⟨hb, hc, hln⟩
    have hcg := contiguous_flat (shape := input.shape) input.val hbl
    rw [eli, (hflat _ ln hbc hln).1, Int.toNat_natCast, ← flatC_two, ← hsh, hcg]
    · rw [hX (hnonempty os hos') (b :: c :: ln) hbl]
      congr 1
      apply eq_of_getD
      · simp [hdl', hlnl, hlis]
      · intro j hj
        simp only [List.length_map, List.length_range] at hj
        rw [getD_map_range _ _ hj]
        match j with
        | 0 => simp only [List.getD_cons_zero]; rw [hx0]; omega
        | 1 => simp only [List.getD_cons_succ, List.getD_cons_zero]; rw [hx1]; omega
        | j + 2 =>
          simp only [List.getD_cons_succ]
          rw [List.getD_eq_getElem (List.zipWith _ _ _) _ (by simp [hdl', hlnl]; omega), List.getElem_zipWith,
            List.getElem_map]
          have := hds j (by omega)
          rw [List.getD_eq_getElem _ _ (by rw [hdl']; omega)] at this
          rw [this, List.getD_eq_getElem ln _ (by omega)]
  · intro j hj f
    rw [hdl'] at hj
    rw [hds j (by omega)]
    obtain ⟨fac, hs, hst, hdi⟩ := hsel (hnonempty os hos') j (by omega)
    exact hs.value (hol os hos' j (by omega)) hst (fun hm => hdi hm _ (hol os hos' j (by omega))) f

end

end Verif
