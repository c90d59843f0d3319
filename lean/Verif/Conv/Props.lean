import Verif.Conv.General

/-!
# C45: which convolution is chosen; grouped channels (C57); one worker for the weights (C58)
-/

namespace Verif
open Exchange

/-! ## C45 -/

/-- What the three layers are documented to distribute: the first one everything but the channels, the
second one channels, the third one channels and features; the last two take partitions `1 x P_ci x …`,
`1 x P_co x …` and `P_co x P_ci x …`. -/
def Supports (K : ConvKind) (px : List Nat) (py pw : Option (List Nat)) : Prop :=
  match K with
  | .feature => py = none ∧ pw = none ∧ px.getD 1 0 = 1
  | .channel => ∃ Po Pi n, px = 1 :: Pi :: List.replicate n 1 ∧ py = some (1 :: Po :: List.replicate n 1) ∧
      pw = some (Po :: Pi :: List.replicate n 1)
  | .general => ∃ Po Pi Sp, px = 1 :: Pi :: Sp ∧ py = some (1 :: Po :: Sp) ∧ pw = some (Po :: Pi :: Sp)

/-- C45, partial: if some layer supports the partitions, the one chosen does; nothing is chosen for two
partitions only.

Full statement: every chosen layer supports the partitions; it is false, `C45_false`.  Missing for the
feature layer: channels may be partitioned, see `C45_channels_rejected`.  For the other layers unsupported
partitions are chosen too but rejected when the layer is built, `C45_shapes_rejected`. -/
theorem C45_selected_partial (px : List Nat) (py pw : Option (List Nat)) :
    (∀ K, Supports K px py pw → ∃ K', selectConv px py pw = some K' ∧ Supports K' px py pw) ∧
    (selectConv px py pw = none ↔ py.isSome ≠ pw.isSome) := by
  constructor
  · intro K hK
    match K, hK with
    | .feature, ⟨h1, h2, h3⟩ =>
      subst h1 h2
      exact ⟨.feature, rfl, rfl, rfl, h3⟩
    | .channel, ⟨Po, Pi, n, h1, h2, h3⟩ =>
      subst h1 h2 h3
      exact ⟨.channel, by simp [selectConv], Po, Pi, n, rfl, rfl, rfl⟩
    | .general, ⟨Po, Pi, Sp, h1, h2, h3⟩ =>
      subst h1 h2 h3
      by_cases h : ∀ n ∈ Sp, n = 1
      · refine ⟨.channel, by simpa [selectConv] using h, Po, Pi, Sp.length, ?_, ?_, ?_⟩ <;>
          rw [← List.eq_replicate_of_mem h]
      · exact ⟨.general, by simpa [selectConv] using h, Po, Pi, Sp, rfl, rfl, rfl⟩
  · unfold selectConv
    cases py <;> cases pw <;> simp
    split <;> simp

example : Supports .general [1, 2, 3] (some [1, 4, 3]) (some [4, 2, 3]) := ⟨4, 2, [3], rfl, rfl, rfl⟩
example : selectConv [1, 2, 3] (some [1, 4, 3]) (some [4, 2, 3]) = some .general := by decide
example : selectConv [1, 2, 1] (some [1, 4, 1]) (some [4, 2, 1]) = some .channel := by decide
example : selectConv [1, 2, 1] (some [1, 4, 1]) none = none := by decide

/-- With all three partitions, the channel layer is chosen exactly when neither the input nor the output is
distributed along a feature dimension, and the general layer otherwise. -/
theorem C45_choice (px py pw : List Nat) :
    (selectConv px (some py) (some pw) = some .channel ↔ ∀ k, 2 ≤ k → px.getD k 1 = 1 ∧ py.getD k 1 = 1) ∧
    (selectConv px (some py) (some pw) = some .general ↔ ∃ k, 2 ≤ k ∧ (px.getD k 1 ≠ 1 ∨ py.getD k 1 ≠ 1)) := by
  have key : ∀ l : List Nat, ((l.drop 2).all fun n => n == 1) = true ↔ ∀ k, 2 ≤ k → l.getD k 1 = 1 := by
    intro l
    rw [List.all_eq_true]
    constructor
    · intro h k hk
      rw [List.getD_eq_getElem?_getD]
      by_cases hl : k < l.length
      · have := h l[k] (by
          rw [List.mem_iff_getElem]
          exact ⟨k - 2, by rw [List.length_drop]; omega, by
            rw [List.getElem_drop]; congr 1; omega⟩)
        rw [List.getElem?_eq_getElem hl]
        simpa using this
      · rw [List.getElem?_eq_none (by omega)]
        rfl
    · intro h n hn
      obtain ⟨k, hk, e⟩ := List.mem_iff_getElem.1 hn
      rw [List.length_drop] at hk
      have := h (k + 2) (by omega)
      rw [List.getD_eq_getElem?_getD, List.getElem?_eq_getElem (by omega)] at this
      rw [List.getElem_drop] at e
      have e2 : l[k + 2] = n := by rw [← e]; congr 1; omega
      simpa [e2] using this
  have both : (((px.drop 2).all fun n => n == 1) && ((py.drop 2).all fun n => n == 1)) = true ↔
      ∀ k, 2 ≤ k → px.getD k 1 = 1 ∧ py.getD k 1 = 1 := by
    rw [Bool.and_eq_true, key, key]
    exact ⟨fun h k hk => ⟨h.1 k hk, h.2 k hk⟩, fun h => ⟨fun k hk => (h k hk).1, fun k hk => (h k hk).2⟩⟩
  have neg : (∃ k, 2 ≤ k ∧ (px.getD k 1 ≠ 1 ∨ py.getD k 1 ≠ 1)) ↔
      ¬ ∀ k, 2 ≤ k → px.getD k 1 = 1 ∧ py.getD k 1 = 1 := by
    constructor
    · rintro ⟨k, hk, h⟩ H
      have := H k hk
      tauto
    · intro h
      by_contra hc
      exact h fun k hk => by
        by_contra hn
        exact hc ⟨k, hk, by tauto⟩
  rw [neg, ← both]
  unfold selectConv
  constructor <;> split <;> simp_all

/-- Output distributed along a feature dimension, input not: the general layer. -/
example : selectConv [1, 2, 1] (some [1, 4, 3]) (some [4, 2, 3]) = some .general := by decide

/-- C45 is false: given only an input partition with two workers along the channels, the feature layer is
chosen. -/
theorem C45_false : ¬ ∀ px py pw K, selectConv px py pw = some K → Supports K px py pw := by
  intro h
  have := h [1, 2, 1, 1] none none .feature (by decide)
  simp [Supports] at this

theorem cart_prod_pos {P : Cart} (h : P.WF) : 0 < P.shape.prod := by
  obtain ⟨w, -, hm⟩ := h.head
  rw [← h.size]
  exact List.length_pos_of_mem hm

/-- The casts of the channel and the general layer reject every combination of partitions that is not
supported, a partitioned batch for instance. -/
theorem C45_shapes_rejected {Px Py Pw : Cart} (hx : Px.WF) (hy : Py.WF) (h2 : 2 ≤ Px.shape.length)
    (h2y : 2 ≤ Py.shape.length) (h2w : 2 ≤ Pw.shape.length) {K : ConvKind}
    (hK : selectConv Px.shape (some Py.shape) (some Pw.shape) = some K)
    (hc : castPartitions (K == .channel) Px Py Pw ≠ none) :
    Supports K Px.shape (some Py.shape) (some Pw.shape) := by
  obtain ⟨b, Pi, Sx, ex⟩ : ∃ b Pi S, Px.shape = b :: Pi :: S := by
    match h : Px.shape, h2 with
    | b :: Pi :: S, _ => exact ⟨b, Pi, S, rfl⟩
  obtain ⟨b', Po, Sy, ey⟩ : ∃ b Pi S, Py.shape = b :: Pi :: S := by
    match h : Py.shape, h2y with
    | b :: Pi :: S, _ => exact ⟨b, Pi, S, rfl⟩
  obtain ⟨Qo, Qi, Sw, ew⟩ : ∃ b Pi S, Pw.shape = b :: Pi :: S := by
    match h : Pw.shape, h2w with
    | b :: Pi :: S, _ => exact ⟨b, Pi, S, rfl⟩
  unfold castPartitions at hc
  rw [ex, ey, ew] at hc hK ⊢
  split at hc
  · rename_i hal
    simp only [alignedX, alignedY, List.drop_succ_cons, List.drop_zero, List.getD_cons_succ, List.getD_cons_zero,
      Bool.and_eq_true, beq_iff_eq] at hal
    obtain ⟨⟨⟨a1, -⟩, a2⟩, ⟨a3, -⟩, a4⟩ := hal
    subst a1 a2 a3 a4
    have px : Px.members.length = (b :: Qi :: Sy).prod := by rw [hx.size, ex]
    have py : Py.members.length = (b' :: Qo :: Sy).prod := by rw [hy.size, ey]
    have pos : 0 < Qi * Sy.prod ∧ 0 < Qo * Sy.prod := by
      constructor
      · refine Nat.pos_of_ne_zero fun h0 => ?_
        have := cart_prod_pos hx
        rw [ex, List.prod_cons, List.prod_cons, h0] at this
        simp at this
      · refine Nat.pos_of_ne_zero fun h0 => ?_
        have := cart_prod_pos hy
        rw [ey, List.prod_cons, List.prod_cons, h0] at this
        simp at this
    have hb : b = 1 := by
      by_contra hb
      apply hc
      rw [createCartesian, if_neg]
      · rfl
      · rintro ⟨-, h⟩
        simp only [castXShape] at h
        rw [px] at h
        simp only [List.take_succ_cons, List.take_zero, List.drop_succ_cons, List.drop_zero, List.cons_append,
          List.nil_append, List.prod_cons, Nat.one_mul] at h
        exact hb (Nat.eq_of_mul_eq_mul_right pos.1 (by rw [Nat.one_mul]; exact h.symm))
    have hb' : b' = 1 := by
      by_contra hb
      apply hc
      rw [Option.bind_eq_none_iff]
      intro a _
      rw [createCartesian, if_neg]
      · rfl
      · rintro ⟨-, h⟩
        simp only [castYShape] at h
        rw [py] at h
        simp only [List.take_succ_cons, List.take_zero, List.drop_succ_cons, List.drop_zero, List.cons_append,
          List.nil_append, List.prod_cons, Nat.one_mul] at h
        exact hb (Nat.eq_of_mul_eq_mul_right pos.2 (by rw [Nat.one_mul]; exact h.symm))
    subst hb hb'
    simp only [selectConv, List.drop_succ_cons, List.drop_zero, Bool.and_self] at hK
    split at hK
    · rename_i h1
      cases hK
      have h1 : ∀ n ∈ Sy, n = 1 := by simpa using h1
      refine ⟨Qo, Qi, Sy.length, ?_, ?_, ?_⟩ <;> rw [← List.eq_replicate_of_mem h1]
    · cases hK
      exact ⟨Qo, Qi, Sy, rfl, rfl, rfl⟩
  · exact absurd rfl hc

/-- Batch over two workers: chosen, then rejected. -/
example : selectConv [2, 1, 3] (some [2, 4, 3]) (some [4, 1, 3]) = some .general ∧
    castPartitions false ⟨List.range 6, [2, 1, 3], some 0⟩ ⟨List.range 24, [2, 4, 3], some 0⟩
      ⟨List.range 12, [4, 1, 3], some 0⟩ = none := by
  refine ⟨by decide, ?_⟩
  rw [castPartitions, if_pos (by decide)]
  rfl

theorem subsize_lt_whole {P i n : Nat} (hP : 1 < P) (hn : P ≤ n) : subsize P i n < n := by
  have hq : 1 ≤ n / P := (Nat.one_le_div_iff (by omega)).2 hn
  have hd := Nat.div_add_mod n P
  have : 2 * (n / P) ≤ P * (n / P) := Nat.mul_le_mul_right _ hP
  unfold subsize
  split <;> omega

/-- With channels partitioned the feature layer, chosen all the same, raises an exception on every worker of
every finished run. -/
theorem C45_channels_rejected {F : Type} [AddCommMonoid F] [Mul F] {P : Cart} {L : Layout}
    {localS : Nat → List Nat × TorchDtype × Bool} {x : Nat → List Nat → F} {X : List Nat → F} {t : TorchDtype}
    {rg : Bool} {nd : Nat} {pk ps pp pd : List Nat} {β : Type} {dt : NpKey} {junk : Nat → β}
    {ops : Nat → List (MgrOp β)} {eager : Bool} {k : Nat} {U : Nat → WinSetup} {S : Nat → HaloSetup}
    {g : GState (List Nat → F) (List Nat → F)} (C : ConvLayer F)
    (hW : winParams nd pk ps pp pd = some C.W) (hD : P.shape.length = nd + 2) (hch : 1 < P.shape.getD 1 0)
    (h : WinInput P C.W L localS x X t rg) (hCi : L.global.getD 1 0 = C.Ci) (hl : WinLimits P C.W L)
    (R : WinRun P C.W 0 localS x dt junk ops eager k U S g) {r : Nat} (hr : r < P.members.length)
    (hfin : (g.ws r).phase = haloPhases P) (rgw : Bool) :
    selectConv P.shape none none = some .feature ∧ featureForward P C rgw localS x U g r = none := by
  refine ⟨rfl, ?_⟩
  obtain ⟨c1, c2, -⟩ := local_windows hW hD h hl R hr hfin
  have hi : InBounds (getCoords P.shape r) P.shape := (getCoords_spec (by rw [← h.wf.size]; exact hr)).1
  have hgl : L.global.length = nd + 2 := by rw [Layout.length_global, h.length, hD]
  have hpl : P.shape.length = (torchPoolShape C.W L.global).length := by rw [length_poolShape C.W hgl, hD]
  have hne : (localInput P 0 localS x U g r).1.getD 1 0 ≠ C.Ci := by
    have e : (torchPoolShape C.W.noPad (localInput P 0 localS x U g r).1).getD 1 0 = _ :=
      congrArg (fun l => l.getD 1 0) c2
    rw [poolShape_getD _ c1 (by omega), (balanced_getD hpl hi (by omega)).1, poolShape_getD _ hgl (by omega)] at e
    change torchOut1 _ 1 1 0 1 = subsize _ _ (torchOut1 _ 1 1 0 1) at e
    rw [torchOut1_one, torchOut1_one, hCi] at e
    have ax := hl 1 (by omega)
    rw [hD, full_eq hW] at ax
    have eb := blocks_length h (j := 1) (by omega)
    have hLl : L.length = nd + 2 := by rw [h.length, hD]
    have es := global_getD (L := L) (j := 1) (by omega)
    have hpos := ax.outputs (P.shape.getD 1 0 - 1) (by rw [eb]; omega)
    rw [eb, ← es, hCi] at hpos
    change 0 < subsize _ _ (torchOut1 _ 1 1 0 1) at hpos
    rw [torchOut1_one] at hpos
    have hle : P.shape.getD 1 0 ≤ C.Ci := by
      by_contra hlt
      unfold subsize at hpos
      rw [Nat.div_eq_of_lt (by omega), Nat.mod_eq_of_lt (by omega)] at hpos
      split at hpos <;> omega
    rw [e]
    exact Nat.ne_of_lt (subsize_lt_whole hch hle)
  have h1 : P.members.length ≠ 1 := by
    intro h1
    have hd : P.shape.getD 1 0 ∣ P.shape.prod := by
      rw [List.getD_eq_getElem _ _ (show 1 < P.shape.length by omega)]
      exact List.dvd_prod (List.getElem_mem _)
    rw [← h.wf.size, h1] at hd
    have := Nat.dvd_one.1 hd
    omega
  have hno : ∀ b (w : List Nat → F) (β : List Nat → F) (d : TorchDtype), torchConvLayer C.W.noPad C.groups C.Ci C.Co b w β
      ⟨(localInput P 0 localS x U g r).1, d, (localInput P 0 localS x U g r).2⟩ = none := by
    intro b w β d
    rw [torchConvLayer, if_neg]
    rintro ⟨-, -, -, -, -, -, hc, -⟩
    exact hne hc
  unfold featureForward
  rw [if_neg h1]
  simp only [hno]
  split <;> rfl

/-! ## C57 -/

section
variable {R : Type} [AddCommMonoid R] [Mul R]

/-- Four channels in, four channels out, two groups, kernel size 1; input channels over workers 0, 1. -/
def grC : ChanConv :=
  ⟨⟨[0, 1], [1, 2, 1], some 0⟩, ⟨[0], [1, 1, 1], some 0⟩, ⟨[0, 1], [1, 2, 1], some 0⟩, ⟨[1], [1], [0], [1]⟩, 2, 4, 4,
    false⟩

/-- One cell; channel 2 is 1, the others are 0. -/
def grX : List Nat → Int := fun l => if l.getD 1 0 = 2 then 1 else 0

/-- The input of `grC`. -/
def grI : Inputs Int :=
  ⟨fun w => ⟨[1, 2, 1], .float64, fun l => grX [0, 2 * w + l.getD 1 0, 0]⟩, fun _ => true⟩

/-- C57 is false: with two groups and input channels 0, 1 on one worker and 2, 3 on the other, output channel
0 depends on input channel 2.  The sequential layer has 0 there whatever its weights are: its first group
reads channels 0 and 1. -/
theorem C57_false :
    (∀ rg, ∃ y, channelForward grC (fun _ _ => (1 : Int)) (fun _ _ => 0) grI rg 0 = some y ∧
      y.shape = [1, 4, 1] ∧ y.val [0, 0, 0] = 1) ∧
    EvenBlocks grC.Px [1, 4, 1] .float64 grX grI.x ∧
    ∀ Wt : List Nat → Int, torchConv grC.W grC.groups grC.Ci grC.Co Wt (fun _ => 0) [1, 4, 1] grX [0, 0, 0] = 0 := by
  refine ⟨fun rg => ⟨_, rfl, by rfl, by rfl⟩, ⟨by decide, fun _ _ => rfl, ?_⟩, fun Wt => ?_⟩
  · intro u hu l hl
    have hu' : u = 0 ∨ u = 1 := by simpa [grC] using hu
    obtain ⟨a, b, c, rfl, ha, hb, hc⟩ := inBounds_cons2 hl
    match c, hc with
    | [c], hc =>
      have e : ∀ s0 s1 s2, shiftBy [s0, s1, s2] [a, b, c] = [s0 + a, s1 + b, s2 + c] := fun _ _ _ => rfl
      rcases hu' with rfl | rfl
      · show grX [0, 2 * 0 + b, 0] = grX (shiftBy [0, 0, 0] [a, b, c])
        rw [e]
        simp [grX]
      · show grX [0, 2 * 1 + b, 0] = grX (shiftBy [0, 2, 0] [a, b, c])
        rw [e]
        simp [grX]
  · show 0 + (∑ c ∈ Finset.range 2, ∑ κ ∈ Finset.range 1, Wt [0, c, κ] * _) = _
    simp [Finset.sum_range_succ, winRead, winPos, extend, grX, grC]

/-- The convolution depends on the entries of its argument only. -/
theorem torchConv_congr {W : WinParams} {gr ci co : Nat} {wt wt' : List Nat → R} {b b' : Nat → R} {n : List Nat}
    {x x' : List Nat → R} (hx : ∀ l, InBounds l n → x l = x' l)
    (hw : ∀ k c κ, k < co → c < ci / gr → InBounds κ W.k → wt (k :: c :: κ) = wt' (k :: c :: κ))
    (hb : ∀ k, k < co → b k = b' k) {o : List Nat} (ho : o.getD 1 0 < co) :
    torchConv W gr ci co wt b n x o = torchConv W gr ci co wt' b' n x' o := by
  match o, ho with
  | [], _ => rfl
  | [_], _ => rfl
  | a :: k :: o, ho =>
    have hk : k < co := ho
    show b k + _ = b' k + _
    rw [hb k hk]
    congr 1
    refine Finset.sum_congr rfl fun c hc => boxSum_congr fun κ hκ => ?_
    rw [hw k c κ hk (Finset.mem_range.1 hc) hκ]
    congr 1
    exact winRead_congr _ _ hx

/-- C57, partial: with one worker for everything the layer is the sequential one, whatever the groups.

Full statement: the same for every channel partition; it is false, `C57_false`. -/
theorem C57_grouped_partial {C : ChanConv} {Po Pi : Nat} {Sp : List Nat} {B : Nat} {N : List Nat} {dt : TorchDtype}
    {X : List Nat → R} {I : Inputs R} {wt b : Nat → List Nat → R} {rg : Nat → Bool} {w : Nat}
    (h : ChanValid C Po Pi Sp) (hSp : Sp.length = C.W.k.length) (hN : N.length = C.W.k.length)
    (hg : 0 < C.groups ∧ C.groups ∣ C.Ci ∧ C.groups ∣ C.Co)
    (hfit : ∀ j, j < C.W.k.length →
      C.W.d.getD j 0 * (C.W.k.getD j 0 - 1) + 1 ≤ N.getD j 0 + 2 * C.W.p.getD j 0)
    (hx : EvenBlocks C.Px (B :: C.Ci :: N) dt X I.x) (hw : C.Pw.members = [w]) (hxm : C.Px.members = [w]) :
    ∃ y, channelForward C wt b I rg w = some y ∧ y.shape = torchConvShape C.W C.Co (B :: C.Ci :: N) ∧
      y.dtype = dt ∧ ∀ l, InBounds l (torchConvShape C.W C.Co (B :: C.Ci :: N)) →
        y.val l = torchConv C.W C.groups C.Ci C.Co (wt w) (fun c => if C.useBias then b w [c] else 0)
          (B :: C.Ci :: N) X l := by
  have h1 : C.Pw.members.length = 1 := by rw [hw]; rfl
  have hw' : w ∈ C.Pw.members := by rw [hw]; simp
  have hx' : w ∈ C.Px.members := by rw [hxm]; simp
  have hones : ∀ n ∈ C.Px.shape, n = 1 := fun n hn =>
    Nat.dvd_one.1 (show n ∣ 1 by
      rw [← show C.Px.members.length = 1 by rw [hxm]; rfl, h.wfx.size]
      exact List.dvd_prod hn)
  have hsp1 : ∀ n ∈ Sp, n = 1 := fun n hn => hones n (by rw [h.shx]; simp [hn])
  have hgl : C.Px.shape.length = (B :: C.Ci :: N).length := by
    rw [h.shx]; simp [hSp, hN]
  have hi : InBounds (C.Px.coord w) C.Px.shape := coords_inBounds h.wfx hx'
  obtain ⟨o1, o2⟩ := ones_block hones hgl hi
  have hsh : (I.x w).shape = B :: C.Ci :: N := (hx.shape w hx').trans o1
  have hval : ∀ l, InBounds l (B :: C.Ci :: N) → (I.x w).val l = X l := by
    intro l hl
    rw [hx.val w hx' l (by rw [o1]; exact hl), o2 l hl.length_eq]
  obtain ⟨p1, p2, -⟩ := h.pos
  have hok : torchConvLayer C.W C.groups C.Ci C.Co C.useBias (wt w) (b w) (I.x w) =
      some ⟨torchConvShape C.W C.Co (I.x w).shape, (I.x w).dtype, torchConv C.W C.groups C.Ci C.Co (wt w)
        (fun c => if C.useBias then b w [c] else 0) (I.x w).shape (I.x w).val⟩ := by
    refine if_pos ?_
    rw [hsh]
    have := h.channels
    exact ⟨by omega, by omega, hg.1, hg.2.1, hg.2.2, by simp [hN], rfl, hfit⟩
  have hf : channelForward C wt b I rg w =
      torchConvLayer C.W C.groups C.Ci C.Co C.useBias (wt w) (b w) (I.x w) := by
    rw [channelForward, if_neg (fun hh => hh.2.2 hw'), h.cast true fun _ => hsp1]
    simp only
    rw [if_pos h1, if_pos hw']
  refine ⟨_, hf.trans hok, congrArg (torchConvShape C.W C.Co) hsh, hx.dtype w hx', fun l hl => ?_⟩
  · show torchConv _ _ _ _ _ _ (I.x w).shape _ l = _
    rw [hsh]
    refine torchConv_congr hval (fun _ _ _ _ _ _ => rfl) (fun _ _ => rfl) ?_
    obtain ⟨a, k, o, rfl, -, hk, -⟩ := inBounds_cons2 (a := B) (b := C.Co) hl
    exact hk

/-- Two groups on one worker. -/
example : ChanValid ⟨⟨[3], [1, 1, 1], some 0⟩, ⟨[3], [1, 1, 1], some 0⟩, ⟨[3], [1, 1, 1], some 0⟩,
    ⟨[1], [1], [0], [1]⟩, 2, 4, 4, true⟩ 1 1 [1] :=
  ⟨⟨by decide, by decide, by decide⟩, ⟨by decide, by decide, by decide⟩, ⟨by decide, by decide, by decide⟩,
    rfl, rfl, rfl, ⟨_, rfl, rfl, rfl⟩, by decide⟩

/-! ## C58 -/

/-- C58, partial: with more than one worker for the weights the forward pass completes on every worker,
wherever the partitions are.

Full statement: the same for one worker; it is false, `C58_false`. -/
theorem C58_placement_partial {C : ChanConv} {Po Pi : Nat} {Sp : List Nat} {B : Nat} {N : List Nat} {dt : TorchDtype}
    {X : List Nat → R} {I : Inputs R} {wt b : Nat → List Nat → R} {rg : Nat → Bool} {Wt β : List Nat → R}
    (h : ChanValid C Po Pi Sp) (hsp : ∀ n ∈ Sp, n = 1) (hSp : Sp.length = C.W.k.length)
    (hN : N.length = C.W.k.length) (hg : C.groups = 1)
    (hfit : ∀ j, j < C.W.k.length →
      C.W.d.getD j 0 * (C.W.k.getD j 0 - 1) + 1 ≤ N.getD j 0 + 2 * C.W.p.getD j 0)
    (hx : EvenBlocks C.Px (B :: C.Ci :: N) dt X I.x) (hp : ChanParams C Po Pi wt b Wt β)
    (hs : ∀ u, C.Active u → (I.x u).shape ≠ []) (h1 : C.Pw.members.length ≠ 1) (w : Nat) :
    ∃ y, channelForward C wt b I rg w = some y := by
  obtain ⟨⟨out, a, -⟩, c, d⟩ := C43_forward (rg := rg) h hsp hSp hN hg hfit hx hp hs (fun e => absurd e h1)
  by_cases hw : C.Active w
  · by_cases hy : w ∈ C.Py.members
    · exact ⟨_, a w hy⟩
    · obtain ⟨z, e, -⟩ := c w hw hy
      exact ⟨z, e⟩
  · exact ⟨_, d w hw⟩

/-- C58 is false: with one worker for the weights, workers of `P_x` and `P_y` elsewhere never get past the
broadcast - the worker of `P_w` does not take part in it. -/
theorem C58_false (C : ChanConv) (Po Pi : Nat) (Sp : List Nat) (h : ChanValid C Po Pi Sp)
    (h1 : C.Pw.members.length = 1) (wt b : Nat → List Nat → R) (I : Inputs R) (rg : Nat → Bool) {w : Nat}
    (hw : w ∈ C.Px.members ∨ w ∈ C.Py.members) (hn : w ∉ C.Pw.members) :
    castPartitions true C.Px C.Py C.Pw = some (C.Px, C.yCast) ∧ channelForward C wt b I rg w = none := by
  have hones : ∀ n ∈ Sp, n = 1 := fun n hn =>
    Nat.dvd_one.1 (show n ∣ 1 by
      rw [← h1, h.wfw.size, h.shw]
      exact List.dvd_prod (by simp [hn]))
  have hc := h.cast true fun _ => hones
  refine ⟨hc, ?_⟩
  rw [channelForward, if_neg, hc]
  · simp only
    rw [if_pos h1, if_neg hn]
  · rintro ⟨a, b, -⟩
    exact hw.elim a b

/-- Weights on worker 0, input on worker 1, output on worker 2. -/
def oneC : ChanConv :=
  ⟨⟨[1], [1, 1, 1], some 0⟩, ⟨[2], [1, 1, 1], some 0⟩, ⟨[0], [1, 1, 1], some 0⟩, ⟨[1], [1], [0], [1]⟩, 1, 1, 1, true⟩

example : ChanValid oneC 1 1 [1] :=
  ⟨⟨by decide, by decide, by decide⟩, ⟨by decide, by decide, by decide⟩, ⟨by decide, by decide, by decide⟩,
    rfl, rfl, rfl, ⟨_, rfl, rfl, rfl⟩, by decide⟩

end

end Verif
