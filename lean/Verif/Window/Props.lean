import Verif.Window.Reads
import Verif.Collective.Props

/-!
# Convolution and pooling over partitioned features: C39, C40, C41, C54

The sequential layer is `torchConv`, `torchAvgPool`, `torchMaxPool` with the padding, applied to the
global input; the distributed layer applies the same operators without padding to what a worker holds
after padding, halo exchange and selection.  Entries range over a commutative semiring (convolution), a
field (average) or a join-semilattice with bottom (maximum): exact arithmetic.
-/

namespace Verif

open Exchange

/-! ## C54 -/

/-- C54: padding with the converted list adds, in every dimension, the left width of that dimension
before and the right width after the entries, and keeps the entries. -/
theorem C54_padding {α : Type} (pad : List (Nat × Nat)) (v : α) (shape : List Nat) (x : List Nat → α)
    (hl : pad.length = shape.length) :
    (torchPad (toTorchPadding pad) v shape x).1 =
      List.zipWith (fun p n => p.1 + n + p.2) pad shape ∧
    (∀ l, InBounds l shape →
      (torchPad (toTorchPadding pad) v shape x).2 (shiftBy (pad.map Prod.fst) l) = x l) ∧
    ∀ m, InBounds m (torchPad (toTorchPadding pad) v shape x).1 →
      (¬ ∃ l, InBounds l shape ∧ m = shiftBy (pad.map Prod.fst) l) →
      (torchPad (toTorchPadding pad) v shape x).2 m = v := by
  have hfl : (pad.map Prod.fst).length = shape.length := by rw [List.length_map, hl]
  have hfg : ∀ j, j < shape.length → (pad.map Prod.fst).getD j 0 = (pad.getD j (0, 0)).1 := by
    intro j hj
    rw [List.getD_eq_getElem _ _ (by rw [hfl]; exact hj), List.getElem_map,
      List.getD_eq_getElem _ _ (by rw [hl]; exact hj)]
  refine ⟨?_, fun l hb => ?_, fun m hm hn => ?_⟩
  · rw [torchPad_shape hl]
    apply eq_of_getD
    · simp [hl]
    · intro j hj
      have hj' : j < shape.length := by simpa using hj
      rw [getD_map_range _ _ hj', List.getD_eq_getElem (List.zipWith _ _ _) _ (by simp [hl]; exact hj'),
        List.getElem_zipWith, List.getD_eq_getElem _ _ (by rw [hl]; exact hj'),
        List.getD_eq_getElem _ _ hj']
  · rw [torchPad_val hl]
    have hb' := inBounds_iff.1 hb
    apply extend_inside hb (by simp [hb'.1])
    intro j hj
    rw [hb'.1] at hj
    rw [getD_map_range _ _ hj, getD_shiftBy (by rw [hfl]; exact hj) (by rw [hb'.1]; exact hj), hfg j hj]
    omega
  · rw [torchPad_val hl]
    rw [torchPad_shape hl] at hm
    have hm' := inBounds_iff.1 hm
    simp only [List.length_map, List.length_range] at hm'
    by_cases hall : ∀ j, j < shape.length → (pad.getD j (0, 0)).1 ≤ m.getD j 0 ∧
        m.getD j 0 < (pad.getD j (0, 0)).1 + shape.getD j 0
    · exfalso
      apply hn
      refine ⟨List.zipWith (· - ·) m (pad.map Prod.fst), ?_, ?_⟩
      · rw [inBounds_iff]
        refine ⟨by rw [List.length_zipWith, hm'.1, hfl, Nat.min_self], fun j hj => ?_⟩
        rw [getD_zipWith_sub (by rw [hm'.1]; exact hj) (by rw [hfl]; exact hj), hfg j hj]
        have := hall j hj
        omega
      · apply eq_of_getD
        · rw [length_shiftBy (by rw [List.length_zipWith, hm'.1, hfl, Nat.min_self]), hm'.1, hfl]
        · intro j hj
          rw [hm'.1] at hj
          rw [getD_shiftBy (by rw [hfl]; exact hj) (by rw [List.length_zipWith, hm'.1, hfl, Nat.min_self]; exact hj),
            getD_zipWith_sub (by rw [hm'.1]; exact hj) (by rw [hfl]; exact hj), hfg j hj]
          have := hall j hj
          omega
    · obtain ⟨j, hj'⟩ := Classical.not_forall.1 hall
      obtain ⟨hj, hnot⟩ := Classical.not_imp.1 hj'
      apply extend_outside hj
      rw [getD_map_range _ _ hj]
      omega

/-- Two dimensions, one row below, two columns to the left. -/
example : toTorchPadding [(0, 1), (2, 0)] = [2, 0, 0, 1] := by decide
example : (torchPad (toTorchPadding [(0, 1), (2, 0)]) 0 [2, 2] fun l => l.getD 0 0 * 2 + l.getD 1 0 + 1).1 =
    [3, 4] := by decide
example : (torchPad (toTorchPadding [(0, 1), (2, 0)]) 0 [2, 2] fun l => l.getD 0 0 * 2 + l.getD 1 0 + 1).2
    [1, 2] = 3 := by decide

/-! ## The local operators -/

theorem expand_length {nd : Nat} {a b : List Nat} (h : expandParameter nd a = some b) : b.length = nd := by
  unfold expandParameter at h
  split at h
  · cases h; simp
  · split at h
    · cases h; assumption
    · cases h

/-- The parameter of a layer with `nd` feature dimensions, given as one number for all of them or as one
per dimension. -/
def PerDimension (nd : Nat) (given used : List Nat) : Prop :=
  used.length = nd ∧ ((∃ a, given = [a] ∧ ∀ n ∈ used, n = a) ∨ (given.length = nd ∧ used = given))

theorem expand_iff {nd : Nat} {a b : List Nat} : expandParameter nd a = some b ↔ PerDimension nd a b := by
  unfold expandParameter PerDimension
  split
  · rename_i h1
    obtain ⟨a0, rfl⟩ := List.length_eq_one_iff.1 h1
    constructor
    · rintro h
      cases h
      refine ⟨by simp, Or.inl ⟨a0, rfl, fun n hn => List.eq_of_mem_replicate hn⟩⟩
    · rintro ⟨hl, ⟨a', h, hb⟩ | ⟨h, rfl⟩⟩
      · cases h
        rw [List.eq_replicate_iff.2 ⟨hl, hb⟩]
        simp
      · simp only [List.length_singleton] at h
        subst h
        rfl
  · rename_i h1
    split
    · rename_i h2
      constructor
      · rintro h
        cases h
        exact ⟨h2, Or.inr ⟨h2, rfl⟩⟩
      · rintro ⟨hl, ⟨a', h, hb⟩ | ⟨h, rfl⟩⟩
        · exact absurd (by rw [h]; rfl) h1
        · rfl
    · rename_i h2
      constructor
      · intro h
        cases h
      · rintro ⟨hl, ⟨a', h, hb⟩ | ⟨h, rfl⟩⟩
        · exact absurd (by rw [h]; rfl) h1
        · exact absurd h h2

/-- C39, parameters: the constructor accepts exactly one number or one number per feature dimension for
kernel size, stride, padding and dilation, and uses them so. -/
theorem C39_parameters {nd : Nat} {k s p d : List Nat} {W : WinParams} :
    winParams nd k s p d = some W ↔ PerDimension nd k W.k ∧ PerDimension nd s W.s ∧
      PerDimension nd p W.p ∧ PerDimension nd d W.d := by
  unfold winParams
  simp only [Option.bind_eq_some_iff, Option.map_eq_some_iff, ← expand_iff]
  constructor
  · rintro ⟨k', h1, s', h2, p', h3, d', h4, rfl⟩
    exact ⟨h1, h2, h3, h4⟩
  · rintro ⟨h1, h2, h3, h4⟩
    exact ⟨_, h1, _, h2, _, h3, _, h4, rfl⟩

example : PerDimension 2 [3] [3, 3] := ⟨rfl, Or.inl ⟨3, rfl, by decide⟩⟩
example : winParams 2 [3] [2, 1] [1] [1] = some ⟨[3, 3], [2, 1], [1, 1], [1, 1]⟩ := by decide
example : winParams 2 [3, 3, 3] [1] [0] [1] = none := by decide

/-- C40, parameters: as for convolution; average pooling accepts dilation 1 only. -/
theorem C40_parameters {avg : Bool} {nd : Nat} {k s p d : List Nat} {W : WinParams} :
    poolParams avg nd k s p d = some W ↔ PerDimension nd k W.k ∧ PerDimension nd s W.s ∧
      PerDimension nd p W.p ∧ PerDimension nd d W.d ∧ (avg = true → ∀ n ∈ W.d, n = 1) := by
  unfold poolParams
  rw [Option.bind_eq_some_iff]
  constructor
  · rintro ⟨W', h1, h2⟩
    split at h2
    · cases h2
    · rename_i hd
      cases h2
      obtain ⟨a, b, c, e⟩ := C39_parameters.1 h1
      refine ⟨a, b, c, e, fun ha => ?_⟩
      subst ha
      simpa using hd
  · rintro ⟨a, b, c, e, hd⟩
    refine ⟨W, C39_parameters.2 ⟨a, b, c, e⟩, ?_⟩
    rw [if_neg]
    cases avg with
    | false => simp
    | true => simpa using hd rfl

example : poolParams true 2 [2] [2] [0] [1] = some ⟨[2, 2], [2, 2], [0, 0], [1, 1]⟩ := by decide
example : poolParams true 2 [2] [2] [0] [2] = none := by decide

theorem winParams_length {nd : Nat} {k s p d : List Nat} {W : WinParams}
    (h : winParams nd k s p d = some W) :
    W.k.length = nd ∧ W.s.length = nd ∧ W.p.length = nd ∧ W.d.length = nd := by
  unfold winParams at h
  simp only [Option.bind_eq_some_iff, Option.map_eq_some_iff] at h
  obtain ⟨k', h1, s', h2, p', h3, d', h4, rfl⟩ := h
  exact ⟨expand_length h1, expand_length h2, expand_length h3, expand_length h4⟩

theorem full_eq {nd : Nat} {k s p d : List Nat} {W : WinParams} (h : winParams nd k s p d = some W) :
    W.full (nd + 2) = ⟨1 :: 1 :: W.k, 1 :: 1 :: W.s, 0 :: 0 :: W.p, 1 :: 1 :: W.d⟩ := by
  obtain ⟨h1, h2, h3, h4⟩ := winParams_length h
  unfold WinParams.full
  rw [h1, h2, h3, h4, show nd + 2 - nd = 2 by omega]
  rfl

theorem torchOut1_one (n : Nat) : torchOut1 n 1 1 0 1 = n := by
  unfold torchOut1
  simp

theorem balanced_getD {Ps ns idx : List Nat} (h : Ps.length = ns.length) (hi : InBounds idx Ps) {j : Nat}
    (hj : j < Ps.length) :
    ((Layout.balanced Ps ns).shapeAt idx).getD j 0 = subsize (Ps.getD j 0) (idx.getD j 0) (ns.getD j 0) ∧
    ((Layout.balanced Ps ns).startAt idx).getD j 0 = startIdx (Ps.getD j 0) (idx.getD j 0) (ns.getD j 0) := by
  have hL : (Layout.balanced Ps ns).length = Ps.length := by simp [Layout.balanced, h]
  have hlen : idx.length = (Layout.balanced Ps ns).length := by rw [hi.length_eq, hL]
  obtain ⟨e1, e2, -⟩ := (Layout.balanced Ps ns).shapeAt_getD idx hlen j (by rw [hL]; exact hj)
  have e : (Layout.balanced Ps ns).getD j [] = (List.range (Ps.getD j 0)).map fun i => subsize (Ps.getD j 0) i (ns.getD j 0) := by
    unfold Layout.balanced
    rw [List.getD_eq_getElem _ _ (by simp [h]; omega), List.getElem_zipWith, List.getD_eq_getElem _ _ hj,
      List.getD_eq_getElem ns _ (by rw [← h]; exact hj)]
  have hlt := inBounds_getD hi hj
  rw [e1, e2, e, getD_map_range _ _ hlt, balanced_take_sum _ _ _ (by omega)]
  exact ⟨rfl, rfl⟩

theorem balanced_lengths {Ps ns idx : List Nat} (h : Ps.length = ns.length) (hi : InBounds idx Ps) :
    ((Layout.balanced Ps ns).shapeAt idx).length = Ps.length ∧
    ((Layout.balanced Ps ns).startAt idx).length = Ps.length := by
  have hL : (Layout.balanced Ps ns).length = Ps.length := by simp [Layout.balanced, h]
  have hlen : idx.length = (Layout.balanced Ps ns).length := by rw [hi.length_eq, hL]
  rw [Layout.length_shapeAt hlen, Layout.length_startAt hlen, hL]
  exact ⟨rfl, rfl⟩

theorem length_torchOut (W : WinParams) (n : List Nat) : (torchOut W n).length = n.length := by
  simp [torchOut]

/-- Extents of the outputs, all dimensions alike. -/
theorem poolShape_getD (W : WinParams) {nd : Nat} {n : List Nat} (hn : n.length = nd + 2) {j : Nat}
    (hj : j < nd + 2) :
    (torchPoolShape W n).getD j 0 = torchOut1 (n.getD j 0) ((1 :: 1 :: W.k).getD j 0)
      ((1 :: 1 :: W.s).getD j 0) ((0 :: 0 :: W.p).getD j 0) ((1 :: 1 :: W.d).getD j 0) := by
  match n, hn with
  | b :: c :: n, hn =>
    match j with
    | 0 => exact (torchOut1_one b).symm
    | 1 => exact (torchOut1_one c).symm
    | j + 2 =>
      show (torchOut W n).getD j 0 = _
      unfold torchOut
      rw [getD_map_range _ _ (by simp at hn; omega)]
      rfl

theorem length_poolShape (W : WinParams) {nd : Nat} {n : List Nat} (hn : n.length = nd + 2) :
    (torchPoolShape W n).length = nd + 2 := by
  match n, hn with
  | b :: c :: n, hn => simp [torchPoolShape, length_torchOut]; simpa using hn

theorem torchOut1_fit {n k s d : Nat} (hk : 0 < k) (hs : 0 < s) (h : 0 < torchOut1 n k s 0 d) :
    d * (k - 1) + 1 ≤ n := by
  by_contra hlt
  unfold torchOut1 at h
  have e : (d : Int) * ((k : Int) - 1) = ((d * (k - 1) : Nat) : Int) := by
    rw [Nat.cast_mul, Nat.cast_sub hk]; rfl
  rw [e] at h
  have hneg : ((n : Int) + 2 * ((0 : Nat) : Int) - ((d * (k - 1) : Nat) : Int) - 1) < 0 := by omega
  have : ((n : Int) + 2 * ((0 : Nat) : Int) - ((d * (k - 1) : Nat) : Int) - 1) / (s : Int) < 0 :=
    Int.ediv_neg_of_neg_of_pos hneg (by omega)
  omega

section
variable {α : Type} {P : Cart} {W : WinParams} {L : Layout} {localS : Nat → List Nat × TorchDtype × Bool}
  {x : Nat → List Nat → α} {X : List Nat → α} {t : TorchDtype} {rg : Bool} {nd : Nat}
  {pk ps pp pd : List Nat}
  {β : Type} {dt : NpKey} {junk : Nat → β} {ops : Nat → List (MgrOp β)} {eager : Bool} {k : Nat}
  {U : Nat → WinSetup} {S : Nat → HaloSetup} {g : GState (List Nat → α) (List Nat → α)} {v : α}

/-- What the windows of all dimensions read, said for batch, channel and feature dimensions; `I` is what the local
operator is applied to, `X` what its windows read. -/
theorem local_of (hW : winParams nd pk ps pp pd = some W) (hD : P.shape.length = nd + 2)
    (hL : L.length = P.shape.length) {idx : List Nat} (hi : InBounds idx P.shape) {I : List Nat × (List Nat → α)}
    (hw : let F := W.full P.shape.length
      let M := fun j => torchOut1 (L.global.getD j 0) (F.k.getD j 0) (F.s.getD j 0) (F.p.getD j 0) (F.d.getD j 0)
      I.1.length = P.shape.length ∧
      (∀ j, j < P.shape.length →
        subsize (P.shape.getD j 0) (idx.getD j 0) (M j) ≤
          torchOut1 (I.1.getD j 0) (F.k.getD j 0) (F.s.getD j 0) 0 (F.d.getD j 0) ∧
        (torchOut1 (I.1.getD j 0) (F.k.getD j 0) (F.s.getD j 0) 0 (F.d.getD j 0) =
            subsize (P.shape.getD j 0) (idx.getD j 0) (M j) ↔
          AxisShare (F.k.getD j 0) (F.s.getD j 0) (F.p.getD j 0) (F.d.getD j 0) (L.getD j []) (idx.getD j 0))) ∧
      ∀ o κ z : List Nat, o.length = P.shape.length →
        (∀ j, j < P.shape.length → o.getD j 0 < subsize (P.shape.getD j 0) (idx.getD j 0) (M j)) →
        (∀ j, j < P.shape.length → κ.getD j 0 < F.k.getD j 0) → (∀ j, z.getD j 0 = 0) →
        winRead v I.1 F.s F.d z I.2 o κ = winRead v L.global F.s F.d F.p X
          (shiftBy ((List.range P.shape.length).map fun j =>
            startIdx (P.shape.getD j 0) (idx.getD j 0) (M j)) o) κ) :
    let out := Layout.balanced P.shape (torchPoolShape W L.global)
    I.1.length = nd + 2 ∧
    (∀ j, j < nd + 2 →
      (out.shapeAt idx).getD j 0 ≤ (torchPoolShape W.noPad I.1).getD j 0 ∧
      ((torchPoolShape W.noPad I.1).getD j 0 = (out.shapeAt idx).getD j 0 ↔
        AxisShare ((W.full P.shape.length).k.getD j 0) ((W.full P.shape.length).s.getD j 0)
          ((W.full P.shape.length).p.getD j 0) ((W.full P.shape.length).d.getD j 0) (L.getD j [])
          (idx.getD j 0))) ∧
    ∀ o κ, InBounds o (out.shapeAt idx) → InBounds κ W.k →
      winRead v I.1 (1 :: 1 :: W.s) (1 :: 1 :: W.d) (0 :: 0 :: W.noPad.p) I.2 o (0 :: 0 :: κ) =
      winRead v L.global (1 :: 1 :: W.s) (1 :: 1 :: W.d) (0 :: 0 :: W.p) X (shiftBy (out.startAt idx) o)
        (0 :: 0 :: κ) := by
  intro out
  obtain ⟨c1, c2, c3⟩ := hw
  rw [hD, full_eq hW] at c2 c3 ⊢
  simp only at c2 c3
  have hgl : L.global.length = nd + 2 := by rw [Layout.length_global, hL, hD]
  have hol : P.shape.length = (torchPoolShape W L.global).length := by rw [length_poolShape W hgl, hD]
  have hI : I.1.length = nd + 2 := by rw [← hD]; exact c1
  have hM : ∀ j, j < nd + 2 → (torchPoolShape W L.global).getD j 0 = torchOut1 (L.global.getD j 0)
      ((1 :: 1 :: W.k).getD j 0) ((1 :: 1 :: W.s).getD j 0) ((0 :: 0 :: W.p).getD j 0)
      ((1 :: 1 :: W.d).getD j 0) := fun j hj => poolShape_getD W hgl hj
  have hnp : ∀ j, (0 :: 0 :: W.noPad.p).getD j 0 = 0 := by
    intro j
    match j with
    | 0 => rfl
    | 1 => rfl
    | j + 2 => exact zeros_getD W.p j
  have hbl := balanced_lengths hol hi
  refine ⟨hI, fun j hj => ?_, fun o κ ho hκ => ?_⟩
  · rw [poolShape_getD _ hI hj, (balanced_getD hol hi (by rw [hD]; exact hj)).1, hnp, hM j hj]
    exact c2 j hj
  · have ho' := inBounds_iff.1 ho
    rw [hbl.1, hD] at ho'
    have hκ' := inBounds_iff.1 hκ
    have := c3 o (0 :: 0 :: κ) (0 :: 0 :: W.noPad.p) ho'.1 (fun j hj => by
      rw [← hM j hj, ← (balanced_getD hol hi (by rw [hD]; exact hj)).1]
      exact ho'.2 j hj) (fun j hj => by
      match j, hj with
      | 0, _ => exact Nat.one_pos
      | 1, _ => exact Nat.one_pos
      | j + 2, hj => exact hκ'.2 j (by rw [(winParams_length hW).1]; omega)) hnp
    rw [this]
    congr 2
    apply eq_of_getD
    · rw [hbl.2, hD]; simp
    · intro j hj
      have hj' : j < nd + 2 := by simpa using hj
      rw [getD_map_range _ _ hj', (balanced_getD hol hi (by rw [hD]; exact hj')).2, hM j hj']

/-- The core for batch, channel and feature dimensions, when the halos fit: at least the share of the outputs
along every dimension, the share and no more exactly if the last limit holds, and the share is right. -/
theorem local_reach (hW : winParams nd pk ps pp pd = some W) (hD : P.shape.length = nd + 2)
    (h : WinInput P W L localS x X t rg) (hl : WinReach P W L)
    (R : WinRun P W v localS x dt junk ops eager k U S g) {r : Nat} (hr : r < P.members.length)
    (hfin : (g.ws r).phase = haloPhases P) :
    let out := Layout.balanced P.shape (torchPoolShape W L.global)
    let idx := getCoords P.shape r
    let I := localInput P v localS x U g r
    I.1.length = nd + 2 ∧
    (∀ j, j < nd + 2 →
      (out.shapeAt idx).getD j 0 ≤ (torchPoolShape W.noPad I.1).getD j 0 ∧
      ((torchPoolShape W.noPad I.1).getD j 0 = (out.shapeAt idx).getD j 0 ↔
        AxisShare ((W.full P.shape.length).k.getD j 0) ((W.full P.shape.length).s.getD j 0)
          ((W.full P.shape.length).p.getD j 0) ((W.full P.shape.length).d.getD j 0) (L.getD j [])
          (idx.getD j 0))) ∧
    ∀ o κ, InBounds o (out.shapeAt idx) → InBounds κ W.k →
      winRead v I.1 (1 :: 1 :: W.s) (1 :: 1 :: W.d) (0 :: 0 :: W.noPad.p) I.2 o (0 :: 0 :: κ) =
      winRead v L.global (1 :: 1 :: W.s) (1 :: 1 :: W.d) (0 :: 0 :: W.p) X (shiftBy (out.startAt idx) o)
        (0 :: 0 :: κ) := by
  intro out idx I
  exact local_of hW hD h.length (getCoords_spec (by rw [← h.wf.size]; exact hr)).1 (windows_reach h hl R hr hfin)

/-- With all limits: the share of the outputs. -/
theorem local_windows (hW : winParams nd pk ps pp pd = some W) (hD : P.shape.length = nd + 2)
    (h : WinInput P W L localS x X t rg) (hl : WinLimits P W L)
    (R : WinRun P W v localS x dt junk ops eager k U S g) {r : Nat} (hr : r < P.members.length)
    (hfin : (g.ws r).phase = haloPhases P) :
    let out := Layout.balanced P.shape (torchPoolShape W L.global)
    let idx := getCoords P.shape r
    let I := localInput P v localS x U g r
    I.1.length = nd + 2 ∧ torchPoolShape W.noPad I.1 = out.shapeAt idx ∧
    ∀ o κ, InBounds o (out.shapeAt idx) → InBounds κ W.k →
      winRead v I.1 (1 :: 1 :: W.s) (1 :: 1 :: W.d) (0 :: 0 :: W.noPad.p) I.2 o (0 :: 0 :: κ) =
      winRead v L.global (1 :: 1 :: W.s) (1 :: 1 :: W.d) (0 :: 0 :: W.p) X (shiftBy (out.startAt idx) o)
        (0 :: 0 :: κ) := by
  intro out idx I
  obtain ⟨c1, c2, c3⟩ := local_reach hW hD h hl.reach R hr hfin
  have hi : InBounds idx P.shape := (getCoords_spec (by rw [← h.wf.size]; exact hr)).1
  have hgl : L.global.length = nd + 2 := by rw [Layout.length_global, h.length, hD]
  have hol : P.shape.length = (torchPoolShape W L.global).length := by rw [length_poolShape W hgl, hD]
  refine ⟨c1, ?_, c3⟩
  apply eq_of_getD
  · rw [length_poolShape _ c1, (balanced_lengths hol hi).1, hD]
  · intro j hj
    rw [length_poolShape _ c1] at hj
    exact (c2 j hj).2.2 (hl.share idx j (by rw [hD]; exact hj))

/-- The kernel fits into what the local operator is applied to. -/
theorem local_fit_base (hW : winParams nd pk ps pp pd = some W) (hD : P.shape.length = nd + 2)
    (h : WinInput P W L localS x X t rg) (hl : WinBase P W L)
    (R : WinRun P W v localS x dt junk ops eager k U S g) {r : Nat} (hr : r < P.members.length) {j : Nat} (hj : j < nd) :
    W.d.getD j 0 * (W.k.getD j 0 - 1) + 1 ≤ (localInput P v localS x U g r).1.getD (j + 2) 0 := by
  have hi : InBounds (getCoords P.shape r) P.shape := (getCoords_spec (by rw [← h.wf.size]; exact hr)).1
  obtain ⟨c1, c2, -⟩ := windows_cell h hl R hr
  have e := (c2 (j + 2) (by omega)).1
  have ax := hl (j + 2) (by omega)
  rw [hD, full_eq hW] at ax
  rw [hD, full_eq hW] at e
  have eb := blocks_length h (j := j + 2) (by omega)
  have hLl : L.length = nd + 2 := by rw [h.length, hD]
  have es := global_getD (L := L) (j := j + 2) (by omega)
  have hpos := ax.outputs _ (show (getCoords P.shape r).getD (j + 2) 0 < _ by
    rw [eb]; exact inBounds_getD hi (by omega))
  rw [eb, ← es] at hpos
  exact torchOut1_fit ax.kernel ax.stride (Nat.lt_of_lt_of_le hpos e)

theorem local_fit (hW : winParams nd pk ps pp pd = some W) (hD : P.shape.length = nd + 2)
    (h : WinInput P W L localS x X t rg) (hl : WinReach P W L)
    (R : WinRun P W v localS x dt junk ops eager k U S g) {r : Nat} (hr : r < P.members.length)
    (_hfin : (g.ws r).phase = haloPhases P) {j : Nat} (hj : j < nd) :
    W.d.getD j 0 * (W.k.getD j 0 - 1) + 1 ≤ (localInput P v localS x U g r).1.getD (j + 2) 0 :=
  local_fit_base hW hD h hl.base R hr hj

/-! ## C40 -/

/-- C40, average pooling: on a worker that has finished, the local layer produces the worker's block of
the sequential output, cut evenly over the partition. -/
theorem C40_average {F : Type} [AddCommMonoid F] [Div F] [NatCast F] {x : Nat → List Nat → F} {X : List Nat → F}
    {g : GState (List Nat → F) (List Nat → F)}
    (hW : poolParams true nd pk ps pp pd = some W) (hD : P.shape.length = nd + 2)
    (h : WinInput P W L localS x X t rg) (hl : WinLimits P W L)
    (R : WinRun P W 0 localS x dt junk ops eager k U S g) {r : Nat} (hr : r < P.members.length)
    (hfin : (g.ws r).phase = haloPhases P) :
    let out := Layout.balanced P.shape (torchPoolShape W L.global)
    let idx := getCoords P.shape r
    let y := avgPoolForward P W localS x U g r
    (∀ n ∈ W.d, n = 1) ∧ y.shape = out.shapeAt idx ∧ y.dtype = t ∧
    ∀ o, InBounds o (out.shapeAt idx) → y.val o = torchAvgPool W L.global X (shiftBy (out.startAt idx) o) := by
  intro out idx I
  obtain ⟨W', hW', hW2⟩ := Option.bind_eq_some_iff.1 hW
  split at hW2
  · cases hW2
  · rename_i hd
    cases hW2
    obtain ⟨-, c2, c3⟩ := local_windows hW' hD h hl R hr hfin
    obtain ⟨m1, m2⟩ := member_spec h.wf hr
    refine ⟨by simpa using hd, c2, by show (localS _).2.1 = t; rw [h.loc _ m1 _ m2], fun o ho => ?_⟩
    show torchAvgPool _ _ _ o = torchAvgPool _ _ _ _
    unfold torchAvgPool
    congr 1
    exact boxSum_congr fun κ hκ => c3 o κ ho hκ

theorem mem_kernelCells {k κ : List Nat} : κ ∈ kernelCells k ↔ InBounds κ k := by
  induction k generalizing κ with
  | nil => cases κ <;> simp [kernelCells, InBounds]
  | cons n ns ih =>
    simp only [kernelCells, List.mem_flatMap, List.mem_range, List.mem_map]
    constructor
    · rintro ⟨i, hi, κ', h', rfl⟩
      exact ⟨hi, ih.1 h'⟩
    · intro hb
      match κ, hb with
      | i :: κ, hb => exact ⟨i, hb.1, κ, ih.2 hb.2, rfl⟩

/-- C40, maximum pooling. -/
theorem C40_maximum {F : Type} [SemilatticeSup F] [OrderBot F] {x : Nat → List Nat → F} {X : List Nat → F}
    {g : GState (List Nat → F) (List Nat → F)}
    (hW : poolParams false nd pk ps pp pd = some W) (hD : P.shape.length = nd + 2)
    (h : WinInput P W L localS x X t rg) (hl : WinLimits P W L)
    (R : WinRun P W ⊥ localS x dt junk ops eager k U S g) {r : Nat} (hr : r < P.members.length)
    (hfin : (g.ws r).phase = haloPhases P) :
    let out := Layout.balanced P.shape (torchPoolShape W L.global)
    let idx := getCoords P.shape r
    let y := maxPoolForward P W localS x U g r
    y.shape = out.shapeAt idx ∧ y.dtype = t ∧
    ∀ o, InBounds o (out.shapeAt idx) → y.val o = torchMaxPool W L.global X (shiftBy (out.startAt idx) o) := by
  intro out idx I
  obtain ⟨W', hW', hW2⟩ := Option.bind_eq_some_iff.1 hW
  simp only [Bool.false_and, Bool.false_eq_true, if_false, Option.some.injEq] at hW2
  subst hW2
  obtain ⟨-, c2, c3⟩ := local_windows hW' hD h hl R hr hfin
  obtain ⟨m1, m2⟩ := member_spec h.wf hr
  refine ⟨c2, by show (localS _).2.1 = t; rw [h.loc _ m1 _ m2], fun o ho => ?_⟩
  show torchMaxPool _ _ _ o = torchMaxPool _ _ _ _
  unfold torchMaxPool
  congr 1
  apply List.map_congr_left
  intro κ hκ
  exact c3 o κ ho (mem_kernelCells.1 hκ)

/-! ## C39 -/

theorem paramBcast_layer (h : P.WF) (hroot : ∃ ρ, P.root = some ρ) (hD : 0 < P.shape.length) :
    BcastLayer (paramBcast P) := by
  obtain ⟨w0, h0, hm⟩ := h.head
  refine ⟨⟨⟨by simp [paramBcast, rootCart], by simp [paramBcast, rootCart], by simp [paramBcast, rootCart]⟩, h, ?_,
    by simp [paramBcast, rootCart], ?_⟩, by simp [paramBcast], Or.inl rfl⟩
  · obtain ⟨ρ, hρ⟩ := hroot
    exact ⟨ρ, hρ, hρ⟩
  · refine ⟨hD, fun j hj => Or.inr ?_⟩
    have : j = 0 := by simpa [turn, paramBcast, rootCart] using hj
    subst this
    rfl

/-- Every worker gets the tensor kept on the first one. -/
theorem paramBcast_forward {F : Type} [AddCommMonoid F] (h : P.WF) (hroot : ∃ ρ, P.root = some ρ)
    (hD : 0 < P.shape.length) (a : Tensor F) (rg : Bool) {r : Nat} (hr : r < P.members.length) :
    bcastForward (paramBcast P) (rootParam P a rg) (P.members.getD r 0) = some a := by
  obtain ⟨r', hr', -, -, e⟩ := (C22_forward (paramBcast P) (paramBcast_layer h hroot hD) (rootParam P a rg)
    (fun hb => by simp [paramBcast] at hb)).1 (P.members.getD r 0) (member_spec h hr).1
  rw [e]
  have : r' = P.members.getD 0 0 := by simpa [paramBcast, rootCart] using hr'
  rw [this]
  simp [rootParam]

theorem group_channel {gr Ci Co co c : Nat} (hg : 0 < gr) (h1 : gr ∣ Ci) (h2 : gr ∣ Co) (hco : co < Co)
    (hc : c < Ci / gr) : co / (Co / gr) * (Ci / gr) + c < Ci := by
  obtain ⟨a, rfl⟩ := h1
  obtain ⟨b, rfl⟩ := h2
  rw [Nat.mul_div_cancel_left _ hg] at hc ⊢
  rw [Nat.mul_div_cancel_left _ hg]
  have hb : 0 < b := Nat.pos_of_ne_zero fun h0 => by subst h0; simp at hco
  have : co / b < gr := Nat.div_lt_of_lt_mul (by rw [Nat.mul_comm]; exact hco)
  calc co / b * a + c < co / b * a + a := by omega
    _ = (co / b + 1) * a := by ring
    _ ≤ gr * a := Nat.mul_le_mul_right _ this

theorem convShape_getD (W : WinParams) (Co : Nat) {n : List Nat} {nd : Nat} (hn : n.length = nd + 2) {j : Nat} :
    (torchConvShape W Co n).getD j 0 = if j = 1 then Co else (torchPoolShape W n).getD j 0 := by
  match n, hn with
  | b :: c :: n, _ =>
    match j with
    | 0 => rfl
    | 1 => rfl
    | j + 2 => simp [torchConvShape, torchPoolShape]

theorem length_convShape (W : WinParams) (Co : Nat) {n : List Nat} {nd : Nat} (hn : n.length = nd + 2) :
    (torchConvShape W Co n).length = nd + 2 := by
  match n, hn with
  | b :: c :: n, hn => simp [torchConvShape, length_torchOut]; simpa using hn

theorem two_heads {l : List Nat} {n : Nat} (h : l.length = n + 2) : ∃ a b t, l = a :: b :: t := by
  match l, h with
  | a :: b :: t, _ => exact ⟨a, b, t, rfl⟩

set_option maxHeartbeats 600000 in
/-- The same for the local convolution without padding. -/
theorem conv_of {F : Type} [AddCommMonoid F] [Mul F] {X : List Nat → F} {gr Ci Co : Nat}
    (hD : P.shape.length = nd + 2) (hch : P.shape.getD 1 0 = 1)
    (hgr : 0 < gr ∧ gr ∣ Ci ∧ gr ∣ Co) (hL : L.length = P.shape.length) (hb : (L.getD 1 []).length = P.shape.getD 1 0)
    (hCi : L.global.getD 1 0 = Ci) {idx : List Nat} (hi : InBounds idx P.shape) {I : List Nat × (List Nat → F)}
    (hc :
      let out := Layout.balanced P.shape (torchPoolShape W L.global)
      I.1.length = nd + 2 ∧
      (∀ j, j < nd + 2 →
        (out.shapeAt idx).getD j 0 ≤ (torchPoolShape W.noPad I.1).getD j 0 ∧
        ((torchPoolShape W.noPad I.1).getD j 0 = (out.shapeAt idx).getD j 0 ↔
          AxisShare ((W.full P.shape.length).k.getD j 0) ((W.full P.shape.length).s.getD j 0)
            ((W.full P.shape.length).p.getD j 0) ((W.full P.shape.length).d.getD j 0) (L.getD j [])
            (idx.getD j 0))) ∧
      ∀ o κ, InBounds o (out.shapeAt idx) → InBounds κ W.k →
        winRead 0 I.1 (1 :: 1 :: W.s) (1 :: 1 :: W.d) (0 :: 0 :: W.noPad.p) I.2 o (0 :: 0 :: κ) =
        winRead 0 L.global (1 :: 1 :: W.s) (1 :: 1 :: W.d) (0 :: 0 :: W.p) X (shiftBy (out.startAt idx) o)
          (0 :: 0 :: κ))
    (wt : List Nat → F) (b : Nat → F) :
    let out := Layout.balanced P.shape (torchConvShape W Co L.global)
    I.1.getD 1 0 = Ci ∧ (torchConvShape W.noPad Co I.1 = out.shapeAt idx ↔ WinShare P W L idx) ∧
    (∀ o, InBounds o (out.shapeAt idx) → InBounds o (torchConvShape W.noPad Co I.1)) ∧
    ∀ o, InBounds o (out.shapeAt idx) →
      torchConv W.noPad gr Ci Co wt b I.1 I.2 o = torchConv W gr Ci Co wt b L.global X (shiftBy (out.startAt idx) o) := by
  intro out
  obtain ⟨c1, c2, c3⟩ := hc
  have hgl : L.global.length = nd + 2 := by rw [Layout.length_global, hL, hD]
  have hpl : P.shape.length = (torchPoolShape W L.global).length := by rw [length_poolShape W hgl, hD]
  have hcl : P.shape.length = (torchConvShape W Co L.global).length := by rw [length_convShape W Co hgl, hD]
  have bp := balanced_lengths hpl hi
  have bc := balanced_lengths hcl hi
  have hi1 : idx.getD 1 0 = 0 := by
    have := inBounds_getD hi (show 1 < P.shape.length by omega)
    omega
  have hs1 : ∀ n, subsize 1 0 n = n := fun n => by simp [subsize, Nat.mod_one]
  have hch' : I.1.getD 1 0 = Ci := by
    have e := (c2 1 (by omega)).2.2 (fun hlt => by
      rw [hb, hch] at hlt
      omega)
    rw [poolShape_getD _ c1 (by omega), (balanced_getD hpl hi (by omega)).1, hch, hi1, hs1,
      poolShape_getD _ hgl (by omega)] at e
    change torchOut1 _ 1 1 0 1 = torchOut1 _ 1 1 0 1 at e
    rw [torchOut1_one, torchOut1_one, hCi] at e
    exact e
  have hcg : ∀ j, j < nd + 2 → (out.shapeAt idx).getD j 0 ≤ (torchConvShape W.noPad Co I.1).getD j 0 ∧
      ((torchConvShape W.noPad Co I.1).getD j 0 = (out.shapeAt idx).getD j 0 ↔
        AxisShare ((W.full P.shape.length).k.getD j 0) ((W.full P.shape.length).s.getD j 0)
          ((W.full P.shape.length).p.getD j 0) ((W.full P.shape.length).d.getD j 0) (L.getD j [])
          (idx.getD j 0)) := by
    intro j hj
    rw [convShape_getD _ _ c1, (balanced_getD hcl hi (by omega)).1, convShape_getD _ _ hgl]
    by_cases h1 : j = 1
    · subst h1
      rw [if_pos rfl, if_pos rfl, hch, hi1, hs1]
      refine ⟨Nat.le_refl _, fun _ hlt => ?_, fun _ => rfl⟩
      rw [hb, hch] at hlt
      omega
    · rw [if_neg h1, if_neg h1, ← (balanced_getD hpl hi (by omega)).1]
      exact c2 j hj
  refine ⟨hch', ⟨fun e j hj => ?_, fun hsh => ?_⟩, fun o ho => ?_, fun o ho => ?_⟩
  · exact (hcg j (by omega)).2.1 (by rw [e])
  · apply eq_of_getD
    · rw [length_convShape _ _ c1, bc.1, hD]
    · intro j hj
      rw [length_convShape _ _ c1] at hj
      exact (hcg j hj).2.2 (hsh j (by omega))
  · have ho' := inBounds_iff.1 ho
    rw [bc.1, hD] at ho'
    rw [inBounds_iff, length_convShape _ _ c1]
    exact ⟨ho'.1, fun j hj => Nat.lt_of_lt_of_le (ho'.2 j hj) (hcg j hj).1⟩
  · have hol : o.length = nd + 2 := by rw [ho.length_eq, bc.1, hD]
    have ho' := inBounds_iff.1 ho
    rw [bc.1] at ho'
    match o, hol with
    | bi :: co :: o, hol =>
      have hco : co < Co := by
        have := ho'.2 1 (by omega)
        rw [(balanced_getD hcl hi (by omega)).1, convShape_getD _ _ hgl, if_pos rfl, hch, hi1, hs1] at this
        exact this
      -- the start in the output layout
      have hsg : ∀ j, j < nd + 2 → (out.startAt idx).getD j 0 = if j = 1 then 0 else
          ((Layout.balanced P.shape (torchPoolShape W L.global)).startAt idx).getD j 0 := by
        intro j hj
        rw [(balanced_getD hcl hi (by omega)).2, convShape_getD _ _ hgl]
        by_cases h1 : j = 1
        · subst h1
          rw [if_pos rfl, if_pos rfl, hch, hi1, startIdx_zero]
        · rw [if_neg h1, if_neg h1, (balanced_getD hpl hi (by omega)).2]
      have hp1 : ((Layout.balanced P.shape (torchPoolShape W L.global)).startAt idx).getD 1 0 = 0 := by
        rw [(balanced_getD hpl hi (by omega)).2, hi1, startIdx_zero]
      obtain ⟨s0, s1, ss, hse⟩ : ∃ s0 s1 ss, out.startAt idx = s0 :: s1 :: ss :=
        two_heads (bc.2.trans hD)
      have hs1' : s1 = 0 := by
        have := hsg 1 (by omega)
        rw [hse] at this
        simpa using this
      have hpe : (Layout.balanced P.shape (torchPoolShape W L.global)).startAt idx = s0 :: s1 :: ss := by
        rw [← hse]
        apply eq_of_getD
        · rw [bp.2, bc.2]
        · intro j hj
          rw [bp.2, hD] at hj
          rw [hsg j hj]
          by_cases h1 : j = 1
          · subst h1; rw [if_pos rfl, hp1]
          · rw [if_neg h1]
      rw [hse]
      show b co + _ = b (s1 + co) + _
      rw [hs1', Nat.zero_add]
      congr 1
      refine Finset.sum_congr rfl fun c hcm => boxSum_congr fun κ hκ => ?_
      congr 1
      have hcc := group_channel hgr.1 hgr.2.1 hgr.2.2 hco (Finset.mem_range.1 hcm)
      have key := c3 (bi :: (co / (Co / gr) * (Ci / gr) + c) :: o) κ (by
        rw [inBounds_iff, bp.1, hD]
        refine ⟨hol, fun j hj => ?_⟩
        have hjD : j < P.shape.length := by rw [hD]; exact hj
        by_cases h1 : j = 1
        · subst h1
          rw [(balanced_getD hpl hi hjD).1, hch, hi1, hs1, poolShape_getD _ hgl (by omega)]
          show _ < torchOut1 _ 1 1 0 1
          rw [torchOut1_one, hCi]
          exact hcc
        · have := ho'.2 j hjD
          rw [(balanced_getD hcl hi hjD).1, convShape_getD _ _ hgl, if_neg h1] at this
          rw [(balanced_getD hpl hi hjD).1]
          rcases j with _ | _ | j
          · exact this
          · exact absurd rfl h1
          · exact this) hκ
      rw [hpe, hs1'] at key
      show winRead 0 I.1 _ _ _ I.2 _ _ = winRead 0 L.global _ _ _ X _ _
      rw [show (W.noPad).s = W.s from rfl, show (W.noPad).d = W.d from rfl, key]
      show _ = winRead 0 L.global _ _ _ X ((s0 + bi) :: _ :: shiftBy ss o) _
      simp only [shiftBy, Nat.zero_add]

/-- The local convolution without padding, when the halos fit: it produces the block of the sequential one and
possibly more, nothing more exactly if the last limit holds. -/
theorem conv_reach {F : Type} [AddCommMonoid F] [Mul F] {x : Nat → List Nat → F} {X : List Nat → F}
    {g : GState (List Nat → F) (List Nat → F)} {gr Ci Co : Nat}
    (hW : winParams nd pk ps pp pd = some W) (hD : P.shape.length = nd + 2) (hch : P.shape.getD 1 0 = 1)
    (hgr : 0 < gr ∧ gr ∣ Ci ∧ gr ∣ Co) (h : WinInput P W L localS x X t rg) (hCi : L.global.getD 1 0 = Ci)
    (hl : WinReach P W L) (R : WinRun P W 0 localS x dt junk ops eager k U S g) {r : Nat}
    (hr : r < P.members.length) (hfin : (g.ws r).phase = haloPhases P) (wt : List Nat → F) (b : Nat → F) :
    let out := Layout.balanced P.shape (torchConvShape W Co L.global)
    let idx := getCoords P.shape r
    let I := localInput P 0 localS x U g r
    I.1.getD 1 0 = Ci ∧ (torchConvShape W.noPad Co I.1 = out.shapeAt idx ↔ WinShare P W L idx) ∧
    (∀ o, InBounds o (out.shapeAt idx) → InBounds o (torchConvShape W.noPad Co I.1)) ∧
    ∀ o, InBounds o (out.shapeAt idx) →
      torchConv W.noPad gr Ci Co wt b I.1 I.2 o = torchConv W gr Ci Co wt b L.global X (shiftBy (out.startAt idx) o) := by
  intro out idx I
  exact conv_of hD hch hgr h.length (blocks_length h (by omega)) hCi
    (getCoords_spec (by rw [← h.wf.size]; exact hr)).1 (local_reach hW hD h hl R hr hfin) wt b

/-- The local convolution without padding produces the block of the sequential one. -/
theorem local_conv {F : Type} [AddCommMonoid F] [Mul F] {x : Nat → List Nat → F} {X : List Nat → F}
    {g : GState (List Nat → F) (List Nat → F)} {gr Ci Co : Nat}
    (hW : winParams nd pk ps pp pd = some W) (hD : P.shape.length = nd + 2) (hch : P.shape.getD 1 0 = 1)
    (hgr : 0 < gr ∧ gr ∣ Ci ∧ gr ∣ Co) (h : WinInput P W L localS x X t rg) (hCi : L.global.getD 1 0 = Ci)
    (hl : WinLimits P W L) (R : WinRun P W 0 localS x dt junk ops eager k U S g) {r : Nat}
    (hr : r < P.members.length) (hfin : (g.ws r).phase = haloPhases P) (wt : List Nat → F) (b : Nat → F) :
    let out := Layout.balanced P.shape (torchConvShape W Co L.global)
    let idx := getCoords P.shape r
    let I := localInput P 0 localS x U g r
    I.1.getD 1 0 = Ci ∧ torchConvShape W.noPad Co I.1 = out.shapeAt idx ∧
    ∀ o, InBounds o (out.shapeAt idx) →
      torchConv W.noPad gr Ci Co wt b I.1 I.2 o = torchConv W gr Ci Co wt b L.global X (shiftBy (out.startAt idx) o) := by
  intro out idx I
  obtain ⟨c1, c2, -, c3⟩ := conv_reach hW hD hch hgr h hCi hl.reach R hr hfin wt b
  exact ⟨c1, c2.2 (hl.share _), c3⟩

/-- C39: on every worker that has finished, the layer returns the worker's block of the sequential
convolution of the global input with the stored weight and bias; blocks are cut evenly over the
partition.  With one worker nothing is required of the halos. -/
theorem C39_feature_conv {F : Type} [AddCommMonoid F] [Mul F] {x : Nat → List Nat → F} {X : List Nat → F}
    {g : GState (List Nat → F) (List Nat → F)} (C : ConvLayer F)
    (hW : winParams nd pk ps pp pd = some C.W) (hD : P.shape.length = nd + 2) (hch : P.shape.getD 1 0 = 1)
    (hroot : ∃ ρ, P.root = some ρ) (hgr : 0 < C.groups ∧ C.groups ∣ C.Ci ∧ C.groups ∣ C.Co)
    (hpos : 0 < C.Ci ∧ 0 < C.Co) (h : WinInput P C.W L localS x X t rg) (hCi : L.global.getD 1 0 = C.Ci)
    (hfit : P.members.length = 1 → ∀ j, j < nd →
      C.W.d.getD j 0 * (C.W.k.getD j 0 - 1) + 1 ≤ L.global.getD (j + 2) 0 + 2 * C.W.p.getD j 0)
    (hl : P.members.length ≠ 1 → WinLimits P C.W L)
    (R : P.members.length ≠ 1 → WinRun P C.W 0 localS x dt junk ops eager k U S g) {r : Nat}
    (hr : r < P.members.length) (hfin : P.members.length ≠ 1 → (g.ws r).phase = haloPhases P) (rgw : Bool) :
    let out := Layout.balanced P.shape (torchConvShape C.W C.Co L.global)
    let idx := getCoords P.shape r
    ∃ y, featureForward P C rgw localS x U g r = some y ∧ y.shape = out.shapeAt idx ∧ y.dtype = t ∧
      ∀ o, InBounds o (out.shapeAt idx) → y.val o =
        torchConv C.W C.groups C.Ci C.Co C.weight.val (biasOf C.bias) L.global X (shiftBy (out.startAt idx) o) := by
  intro out idx
  obtain ⟨m1, m2⟩ := member_spec h.wf hr
  have hloc := h.loc _ m1 _ m2
  have hi : InBounds idx P.shape := (getCoords_spec (by rw [← h.wf.size]; exact hr)).1
  by_cases h1 : P.members.length = 1
  · -- one worker
    have hgl : L.global.length = nd + 2 := by rw [Layout.length_global, h.length, hD]
    have hcl : P.shape.length = (torchConvShape C.W C.Co L.global).length := by
      rw [length_convShape C.W C.Co hgl, hD]
    have hone : ∀ j, j < P.shape.length → P.shape.getD j 0 = 1 := by
      intro j hj
      have hp : P.shape.prod = 1 := by rw [← h.wf.size, h1]
      have hd : P.shape.getD j 0 ∣ P.shape.prod := by
        rw [List.getD_eq_getElem _ _ hj]
        exact List.dvd_prod (List.getElem_mem hj)
      rw [hp] at hd
      exact Nat.dvd_one.1 hd
    have hidx : ∀ j, j < P.shape.length → idx.getD j 0 = 0 := by
      intro j hj
      have := inBounds_getD hi hj
      rw [hone j hj] at this
      omega
    have hlen : idx.length = L.length := by rw [h.length, hi.length_eq]
    have hblock : ∀ j, j < P.shape.length → ∃ n, L.getD j [] = [n] := by
      intro j hj
      have hb := blocks_length h hj
      rw [hone j hj] at hb
      match hL : L.getD j [], hb with
      | [n], _ => exact ⟨n, rfl⟩
    have hshape : L.shapeAt idx = L.global := by
      apply eq_of_getD
      · rw [Layout.length_shapeAt hlen, Layout.length_global]
      · intro j hj
        rw [Layout.length_shapeAt hlen] at hj
        have hj' : j < P.shape.length := by rw [← h.length]; exact hj
        obtain ⟨n, hn⟩ := hblock j hj'
        rw [(L.shapeAt_getD idx hlen j hj).1, global_getD hj, hn, hidx j hj']
        simp
    have hstart : ∀ j, j < P.shape.length → (L.startAt idx).getD j 0 = 0 := by
      intro j hj
      rw [(L.shapeAt_getD idx hlen j (by rw [h.length]; exact hj)).2.1, hidx j hj]
      simp
    have hx : ∀ l, InBounds l L.global → x (P.members.getD r 0) l = X l := by
      intro l hb
      rw [← hshape] at hb
      rw [h.data _ m1 _ m2 l hb]
      congr 1
      have hll : l.length = P.shape.length := by rw [hb.length_eq, Layout.length_shapeAt hlen, h.length]
      have hsl : (L.startAt idx).length = P.shape.length := by rw [Layout.length_startAt hlen, h.length]
      apply eq_of_getD
      · rw [length_shiftBy (by rw [hll, hsl]), hsl, hll]
      · intro j hj
        rw [length_shiftBy (by rw [hll, hsl]), hsl] at hj
        rw [getD_shiftBy (by rw [hsl]; exact hj) (by rw [hll]; exact hj), hstart j hj, Nat.zero_add]
    have bc := balanced_lengths hcl hi
    have hos : out.shapeAt idx = torchConvShape C.W C.Co L.global := by
      apply eq_of_getD
      · rw [bc.1, hcl]
      · intro j hj
        rw [bc.1] at hj
        rw [(balanced_getD hcl hi hj).1, hone j hj, hidx j hj]
        simp [subsize, Nat.mod_one]
    refine ⟨⟨torchConvShape C.W C.Co (localS (P.members.getD r 0)).1, (localS (P.members.getD r 0)).2.1,
      torchConv C.W C.groups C.Ci C.Co C.weight.val (biasOf C.bias) (localS (P.members.getD r 0)).1
        (x (P.members.getD r 0))⟩, ?_, ?_, ?_, fun o ho => ?_⟩
    · unfold featureForward
      rw [if_pos h1, torchConvLayer, if_pos]
      · congr 3
        funext c
        cases C.bias <;> rfl
      · rw [hloc]
        show _ ∧ _ ∧ _ ∧ _ ∧ _ ∧ (L.shapeAt idx).length = _ ∧ (L.shapeAt idx).getD 1 0 = _ ∧
          ∀ j, j < C.W.k.length → _ ≤ (L.shapeAt idx).getD (j + 2) 0 + _
        rw [hshape, (winParams_length hW).1]
        exact ⟨hpos.1, hpos.2, hgr.1, hgr.2.1, hgr.2.2, hgl, hCi, hfit h1⟩
    · show torchConvShape C.W C.Co (localS (P.members.getD r 0)).1 = _
      rw [hloc, hshape, hos]
    · show (localS (P.members.getD r 0)).2.1 = _
      rw [hloc]
    · show torchConv _ _ _ _ _ _ (localS (P.members.getD r 0)).1 _ o = _
      rw [hloc]
      have hol : o.length = P.shape.length := by rw [ho.length_eq, bc.1]
      have hso : shiftBy (out.startAt idx) o = o := by
        apply eq_of_getD
        · rw [length_shiftBy (by rw [hol, bc.2]), bc.2, hol]
        · intro j hj
          rw [length_shiftBy (by rw [hol, bc.2]), bc.2] at hj
          rw [getD_shiftBy (by rw [bc.2]; exact hj) (by rw [hol]; exact hj), (balanced_getD hcl hi hj).2,
            hidx j hj, startIdx_zero, Nat.zero_add]
      rw [hso]
      simp only
      rw [show L.shapeAt (getCoords P.shape r) = L.global from hshape]
      match o with
      | [] => rfl
      | [_] => rfl
      | b :: co :: o =>
        show biasOf C.bias co + _ = biasOf C.bias co + _
        congr 1
        refine Finset.sum_congr rfl fun c _ => boxSum_congr fun κ _ => ?_
        congr 1
        unfold winRead extend
        split
        · rename_i hb
          apply hx
          have hb' := inBoundsI_iff.1 hb
          rw [inBounds_iff, List.length_map]
          refine ⟨hb'.1, fun j hj => ?_⟩
          have := hb'.2 j hj
          rw [List.getD_eq_getElem _ _ (by rw [List.length_map, hb'.1]; exact hj), List.getElem_map]
          rw [List.getD_eq_getElem _ _ (by rw [hb'.1]; exact hj)] at this
          omega
        · rfl
  · obtain ⟨c1, c2, c3⟩ := local_conv hW hD hch hgr h hCi (hl h1) (R h1) hr (hfin h1) C.weight.val (biasOf C.bias)
    have hw := paramBcast_forward h.wf hroot (by omega) C.weight rgw hr
    have hb : ∀ b : Tensor F, bcastForward (paramBcast P) (rootParam P b rgw) (P.members.getD r 0) = some b := fun b =>
      paramBcast_forward h.wf hroot (by omega) b rgw hr
    have hok : 0 < C.Ci ∧ 0 < C.Co ∧ 0 < C.groups ∧ C.groups ∣ C.Ci ∧ C.groups ∣ C.Co ∧
        (localInput P 0 localS x U g r).1.length = C.W.noPad.k.length + 2 ∧
        (localInput P 0 localS x U g r).1.getD 1 0 = C.Ci ∧ ∀ j, j < C.W.noPad.k.length →
          C.W.noPad.d.getD j 0 * (C.W.noPad.k.getD j 0 - 1) + 1 ≤
            (localInput P 0 localS x U g r).1.getD (j + 2) 0 + 2 * C.W.noPad.p.getD j 0 := by
      have hkn : C.W.noPad.k.length = nd := (winParams_length hW).1
      rw [hkn]
      refine ⟨hpos.1, hpos.2, hgr.1, hgr.2.1, hgr.2.2, (local_windows hW hD h (hl h1) (R h1) hr (hfin h1)).1, c1,
        fun j hj => ?_⟩
      exact Nat.le_trans (local_fit hW hD h (hl h1).reach (R h1) hr (hfin h1) hj) (Nat.le_add_right _ _)
    cases hbias : C.bias with
    | none =>
      rw [hbias] at c3
      refine ⟨_, by unfold featureForward; rw [if_neg h1, hw, hbias]; exact if_pos hok, c2, by rw [hloc], c3⟩
    | some b =>
      rw [hbias] at c3
      refine ⟨_, by unfold featureForward; rw [if_neg h1, hw, hbias, Option.map_some, hb b]; exact if_pos hok, c2,
        by rw [hloc], c3⟩

end

end Verif
