import Verif.Net.Repeat

/-!
# Networks: parameters that change

An optimiser is not part of the library; its user changes the parameters between two calls, entry by entry, on every worker
(`tests/layers/test_batchnorm.py:190-193, 241-244`: "this is what optimizer does").  Here: what it means that the workers
store the parameters of the sequential network, and that they still do so after an update.
-/

namespace Verif.Net

variable {F β : Type}

/-! ## The update of a worker -/

/-- The new value of a parameter with gradient `g`; `opt` computes the new entry from the old one and its gradient
(`tests/layers/test_batchnorm.py:192-193, 243-244`). -/
def updT (opt : F → F → F) (a g : Tensor F) : Tensor F :=
  ⟨a.shape, a.dtype, fun l => if InBounds l a.shape then opt (a.val l) (g.val l) else a.val l⟩

/-- The parameters of a layer that have a gradient change, the others stay. -/
def stepPar (opt : F → F → F) (θ : Nat → Tensor F) (gr : Nat → Option (Tensor F)) (p : Nat) : Tensor F :=
  match gr p with
  | some g => updT opt (θ p) g
  | none => θ p

theorem stepPar_bare (opt : F → F → F) (θ : Nat → Tensor F) (gr : Nat → Option (Tensor F)) (p : Nat) :
    (stepPar opt θ gr p).bare = (θ p).bare := by
  refine tensor_bare.2 ?_
  unfold stepPar
  split <;> exact ⟨rfl, rfl⟩

/-! ## Specification: the sequential network -/

section
variable [Field F]

/-- The layer after an update of its parameters: every entry is computed from the old one and its gradient.  (`s`, `X`): the
input of the layer; `Y`: the gradient of its output.  The parameters of a feature-distributed convolution are tensors, and
only what is inside of their shapes changes. -/
def TLayer.upd (opt : F → F → F) : TLayer F β → List Nat × (List Nat → F) → (List Nat → F) → TLayer F β
  | .conv c cw cb C rgw B, (s, X), Y => .conv c cw cb { C with
      weight := ⟨C.weight.shape, C.weight.dtype, fun l => if InBounds l (C.Co :: C.Ci / C.groups :: C.W.k) then
        opt (C.weight.val l) (torchConvGradW C.W C.groups C.Ci C.Co s X Y l) else C.weight.val l⟩
      bias := C.bias.map fun b => ⟨b.shape, b.dtype, fun l => if InBounds l [C.Co] then
        opt (b.val l) (torchConvGradB C.W C.Co s Y l) else b.val l⟩ } rgw B
  | .lin c cy A rgp weight bias, (s, X), Y => .lin c cy A rgp
      (fun l => opt (weight l) (denseGradW (s.headD 0) X Y l))
      (if A.useBias then fun l => opt (bias l) (denseGradB (s.headD 0) Y l) else bias)
  | .chan c cy C weight bias rgp Wt bi, (s, X), Y => .chan c cy C weight bias rgp
      (fun l => opt (Wt l) (torchConvGradW C.W 1 C.Ci C.Co s X Y l))
      (if C.useBias then fun l => opt (bi l) (torchConvGradB C.W C.Co s Y l) else bi)
  | .gen c cw cb cx cy C weight bias rgp B Wt bi, (s, X), Y => .gen c cw cb cx cy C weight bias rgp B
      (fun l => opt (Wt l) (torchConvGradW C.W 1 C.Ci C.Co s X Y l))
      (if C.useBias then fun l => opt (bi l) (torchConvGradB C.W C.Co s Y l) else bi)
  | .map f df, _, _ => .map f df
  | .avg c Q B, _, _ => .avg c Q B
  | .flat, _, _ => .flat
  | .rep c Py pb B, _, _ => .rep c Py pb B

/-- The sequential network after an update. -/
def updNet (opt : F → F → F) : List (TLayer F β) → List Nat × (List Nat → F) → (List Nat → F) → List (TLayer F β)
  | [], _, _ => []
  | l :: ls, x, Y => l.upd opt x (tadjNet ls (l.seq x) Y) :: updNet opt ls (l.seq x) Y

end

/-- The workers store the parameters of the layer: `θ w i` is parameter `i` of worker `w`.  The feature-distributed
convolution has its parameters on the first worker of `P` (`conv_feature.py:171-190`), the linear layer and the convolution
over channels have blocks of them on the workers of `P_w` (`linear.py:70-80`, `conv_channel.py:206-224`), the general
convolution on those of `P_wr` and `P_br` (`conv_general.py:303-345`). -/
def TLayer.Stores (P : Cart) (θ : Nat → Nat → Tensor F) : TLayer F β → Prop
  | .conv _ _ _ C _ _ =>
    (θ (P.members.getD 0 0) 0 = C.weight ∧ C.weight.shape = C.Co :: C.Ci / C.groups :: C.W.k) ∧
    (∀ b, C.bias = some b → θ (P.members.getD 0 0) 1 = b ∧ b.shape = [C.Co]) ∧
    ∀ w ∈ P.members, ∀ i, (θ w i).dtype = (θ (P.members.getD 0 0) i).dtype
  | .lin _ _ A _ weight bias =>
    (∀ w ∈ A.Pw.members,
      (θ w 0).shape = [subsize (A.Pw.shape.getD 0 0) ((A.Pw.coord w).getD 0 0) A.outFeatures,
        subsize (A.Pw.shape.getD 1 0) ((A.Pw.coord w).getD 1 0) A.inFeatures] ∧
      ∀ k < subsize (A.Pw.shape.getD 0 0) ((A.Pw.coord w).getD 0 0) A.outFeatures,
      ∀ i < subsize (A.Pw.shape.getD 1 0) ((A.Pw.coord w).getD 1 0) A.inFeatures,
        (θ w 0).val [k, i] = weight [startIdx (A.Pw.shape.getD 0 0) ((A.Pw.coord w).getD 0 0) A.outFeatures + k,
          startIdx (A.Pw.shape.getD 1 0) ((A.Pw.coord w).getD 1 0) A.inFeatures + i]) ∧
    ∀ w ∈ A.Pw.members, (A.Pw.coord w).getD 1 0 = 0 →
      (A.useBias = true → (θ w 1).shape = [subsize (A.Pw.shape.getD 0 0) ((A.Pw.coord w).getD 0 0) A.outFeatures]) ∧
      ∀ k < subsize (A.Pw.shape.getD 0 0) ((A.Pw.coord w).getD 0 0) A.outFeatures,
        (θ w 1).val [k] = bias [startIdx (A.Pw.shape.getD 0 0) ((A.Pw.coord w).getD 0 0) A.outFeatures + k]
  | .chan _ _ C _ _ _ Wt bi =>
    (∀ w ∈ C.Pw.members,
      (θ w 0).shape = subsize (C.Pw.shape.getD 0 0) ((C.Pw.coord w).getD 0 0) C.Co ::
        subsize (C.Pw.shape.getD 1 0) ((C.Pw.coord w).getD 1 0) C.Ci :: C.W.k ∧
      ∀ k < subsize (C.Pw.shape.getD 0 0) ((C.Pw.coord w).getD 0 0) C.Co,
      ∀ c < subsize (C.Pw.shape.getD 1 0) ((C.Pw.coord w).getD 1 0) C.Ci, ∀ κ, InBounds κ C.W.k →
        (θ w 0).val (k :: c :: κ) = Wt ((startIdx (C.Pw.shape.getD 0 0) ((C.Pw.coord w).getD 0 0) C.Co + k) ::
          (startIdx (C.Pw.shape.getD 1 0) ((C.Pw.coord w).getD 1 0) C.Ci + c) :: κ)) ∧
    ∀ w ∈ C.Pw.members, (C.Pw.coord w).getD 1 0 = 0 →
      (C.useBias = true → (θ w 1).shape = [subsize (C.Pw.shape.getD 0 0) ((C.Pw.coord w).getD 0 0) C.Co]) ∧
      ∀ k < subsize (C.Pw.shape.getD 0 0) ((C.Pw.coord w).getD 0 0) C.Co,
        (θ w 1).val [k] = bi [startIdx (C.Pw.shape.getD 0 0) ((C.Pw.coord w).getD 0 0) C.Co + k]
  | .gen _ _ _ _ _ C _ _ _ _ Wt bi =>
    (∀ w ∈ C.Pw.members, (∀ i ∈ (C.Pw.coord w).drop 2, i = 0) →
      (θ w 0).shape = subsize (C.Pw.shape.getD 0 0) ((C.Pw.coord w).getD 0 0) C.Co ::
        subsize (C.Pw.shape.getD 1 0) ((C.Pw.coord w).getD 1 0) C.Ci :: C.W.k ∧
      ∀ k < subsize (C.Pw.shape.getD 0 0) ((C.Pw.coord w).getD 0 0) C.Co,
      ∀ c < subsize (C.Pw.shape.getD 1 0) ((C.Pw.coord w).getD 1 0) C.Ci, ∀ κ, InBounds κ C.W.k →
        (θ w 0).val (k :: c :: κ) = Wt ((startIdx (C.Pw.shape.getD 0 0) ((C.Pw.coord w).getD 0 0) C.Co + k) ::
          (startIdx (C.Pw.shape.getD 1 0) ((C.Pw.coord w).getD 1 0) C.Ci + c) :: κ)) ∧
    ∀ w ∈ C.Pw.members, (∀ i ∈ (C.Pw.coord w).drop 1, i = 0) →
      (C.useBias = true → (θ w 1).shape = [subsize (C.Pw.shape.getD 0 0) ((C.Pw.coord w).getD 0 0) C.Co]) ∧
      ∀ k < subsize (C.Pw.shape.getD 0 0) ((C.Pw.coord w).getD 0 0) C.Co,
        (θ w 1).val [k] = bi [startIdx (C.Pw.shape.getD 0 0) ((C.Pw.coord w).getD 0 0) C.Co + k]
  | _ => True

/-- The workers store the parameters of the network; `T w i p` is parameter `p` of layer `i` on worker `w`. -/
def StoresNet (P : Cart) (T : Nat → Nat → Nat → Tensor F) : Nat → List (TLayer F β) → Prop
  | _, [] => True
  | i, l :: ls => l.Stores P (fun w => T w i) ∧ StoresNet (l.out P) T (i + 1) ls

/-! ## One layer -/

/-- The same layer with other parameters of the sequential network. -/
inductive Kin : TLayer F β → TLayer F β → Prop
  | conv (c cw cb : Nat) (C : ConvLayer F) (a : Tensor F) (b : Option (Tensor F)) (rgw : Bool) (B : Bufs β)
      (h : b.isSome = C.bias.isSome) : Kin (.conv c cw cb C rgw B) (.conv c cw cb { C with weight := a, bias := b } rgw B)
  | lin (c cy : Nat) (A : LinearLayer F) (rgp : Bool) (weight bias weight' bias' : List Nat → F) :
      Kin (.lin c cy A rgp weight bias) (.lin c cy A rgp weight' bias')
  | chan (c cy : Nat) (C : ChanConv) (weight bias : Nat → Tensor F) (rgp : Bool) (Wt bi Wt' bi' : List Nat → F) :
      Kin (.chan c cy C weight bias rgp Wt bi) (.chan c cy C weight bias rgp Wt' bi')
  | gen (c cw cb cx cy : Nat) (C : ChanConv) (weight bias : Nat → Tensor F) (rgp : Bool) (B : Bufs β)
      (Wt bi Wt' bi' : List Nat → F) :
      Kin (.gen c cw cb cx cy C weight bias rgp B Wt bi) (.gen c cw cb cx cy C weight bias rgp B Wt' bi')
  | map (f df : F → F) : Kin (.map f df) (.map f df)
  | avg (c : Nat) (Q : WinParams) (B : Bufs β) : Kin (.avg c Q B) (.avg c Q B)
  | flat : Kin .flat .flat
  | rep (c : Nat) (Py : Cart) (pb : Bool) (B : Bufs β) : Kin (.rep c Py pb B) (.rep c Py pb B)

theorem Kin.refl (l : TLayer F β) : Kin l l := by
  cases l with
  | conv c cw cb C rgw B => exact .conv c cw cb C C.weight C.bias rgw B rfl
  | map | avg | flat | rep | lin | chan | gen => constructor

theorem Kin.trans {a b c : TLayer F β} (h : Kin a b) (h' : Kin b c) : Kin a c := by
  cases h with
  | conv c cw cb C x y rgw B e =>
    cases h' with
    | conv _ _ _ _ x' y' _ _ e' => exact .conv c cw cb C x' y' rgw B (e'.trans e)
  | map | avg | flat | rep | lin | chan | gen => cases h'; constructor

section
variable [Field F]

theorem kin_upd (opt : F → F → F) (l : TLayer F β) (x : List Nat × (List Nat → F)) (Y : List Nat → F) :
    Kin l (l.upd opt x Y) := by
  cases l with
  | conv c cw cb C rgw B => exact .conv c cw cb C _ _ rgw B (by simp)
  | map | avg | flat | rep | lin | chan | gen => constructor

variable {l l' : TLayer F β} {P : Cart} {θ : Nat → Nat → Tensor F} {W : List Nat} {L L' : Layout}

omit [Field F] in
theorem Kin.out (h : Kin l l') (P : Cart) : l'.out P = l.out P := by cases h <;> rfl

/-- The parts of the program do not depend on the parameters of the sequential network. -/
theorem Kin.parts (h : Kin l l') (P : Cart) (θ : Nat → Nat → Tensor F) :
    (l'.withPar P θ).mods P = (l.withPar P θ).mods P ∧ (l'.withPar P θ).segs P = (l.withPar P θ).segs P ∧
    (l'.withPar P θ).cuts P = (l.withPar P θ).cuts P ∧ (l'.withPar P θ).has P = (l.withPar P θ).has P ∧
    (l'.withPar P θ).adjProg P = (l.withPar P θ).adjProg P := by
  cases h with
  | conv c cw cb C a b rgw B e =>
    have : (TLayer.conv c cw cb { C with weight := a, bias := b } rgw B).withPar P θ =
        (TLayer.conv c cw cb C rgw B).withPar P θ := by
      simp only [TLayer.withPar]
      congr 2
      cases b <;> cases hb : C.bias <;> simp_all
    rw [this]
    exact ⟨rfl, rfl, rfl, rfl, rfl⟩
  | map | avg | flat | rep | lin | chan | gen => exact ⟨rfl, rfl, rfl, rfl, rfl⟩

omit [Field F] in
theorem Kin.plain (h : Kin l l') : l'.plain = l.plain := by cases h <;> rfl

omit [Field F] in
theorem TLayer.Stores.oneType (h : l.Stores P θ) : l.OneType P θ := by
  cases l with
  | conv c cw cb C rgw B => exact h.2.2
  | map | avg | flat | rep | lin | chan | gen => trivial

omit [Field F] in
/-- What a layer asks of its callers does not depend on the values of its parameters. -/
theorem TFits.kin (h : TFits W P L l L') (hk : Kin l l') (hs : l'.Stores P θ) : TFits W P L (l'.withPar P θ) L' := by
  cases h with
  | map f df => cases hk; exact .map f df
  | conv c cw cb C rgw B hC hD hch hroot hgr hpos hCi hfit hl =>
    cases hk with
    | conv _ _ _ _ a b _ _ e =>
      exact .conv c cw cb { C with weight := _, bias := _ } rgw B hC hD hch hroot hgr hpos hCi hfit hl
  | avg c Q B hQ hD hl => cases hk; exact .avg c Q B hQ hD hl
  | flat hs' => cases hk; exact .flat hs'
  | rep c Py pb B wf dims pos ones hW => cases hk; exact .rep c Py pb B wf dims pos ones hW
  | @lin Po Pi b c cy A rgp weight bias hv hp hw hy =>
    cases hk
    have e0 : A.Pw.shape.getD 0 0 = Po := by rw [hv.shw]; rfl
    have e1 : A.Pw.shape.getD 1 0 = Pi := by rw [hv.shw]; rfl
    simp only [TLayer.Stores, e0, e1] at hs
    exact .lin c cy { A with weight := fun w => (θ w 0).val, bias := fun w => (θ w 1).val } rgp _ _
      ⟨hv.wfx, hv.wfy, hv.wfw, hv.shx, hv.shy, hv.shw, hv.root, hv.sx, hv.sy, hv.features⟩
      ⟨fun v hv => (hs.1 v hv).2, fun v hv h0 => (hs.2 v hv h0).2⟩ hw hy
  | @chan Po Pi Sp B N c cy C weight bias rgp Wt bi hv h1 hSp hN hg hfit hp place hw hy =>
    cases hk
    have e0 : C.Pw.shape.getD 0 0 = Po := by rw [hv.shw]; rfl
    have e1 : C.Pw.shape.getD 1 0 = Pi := by rw [hv.shw]; rfl
    simp only [TLayer.Stores, e0, e1] at hs
    exact .chan c cy C _ _ rgp _ _ hv h1 hSp hN hg hfit
      ⟨fun v hv => (hs.1 v hv).2, fun v hv h0 => (hs.2 v hv h0).2⟩ place hw hy
  | @gen Po Pi Sp B N _ c cw cb cx cy C weight bias rgp Bf Wt bi nd _ _ _ _ hW hv hSp hg hGl hfit hl hp place hw hy =>
    cases hk
    have e0 : C.Pw.shape.getD 0 0 = Po := by rw [hv.shw]; rfl
    have e1 : C.Pw.shape.getD 1 0 = Pi := by rw [hv.shw]; rfl
    simp only [TLayer.Stores, e0, e1] at hs
    exact .gen c cw cb cx cy C _ _ rgp Bf _ _ hW hv hSp hg hGl hfit hl
      ⟨fun v hv h0 => (hs.1 v hv h0).2, fun v hv h0 => (hs.2 v hv h0).2⟩ place hw hy

/-- The sequential result and gradient. -/
theorem TLayer.Stores.seq_adj (h : l.Stores P θ) :
    (l.withPar P θ).seq = l.seq ∧ (l.withPar P θ).adj = l.adj := by
  cases l with
  | conv c cw cb C rgw B =>
    have : (TLayer.conv c cw cb C rgw B).withPar P θ = .conv c cw cb C rgw B := by
      obtain ⟨W, g, Ci, Co, a, b⟩ := C
      obtain ⟨⟨h1, -⟩, h2, -⟩ := h
      simp only [TLayer.withPar, h1]
      cases b with
      | none => rfl
      | some b => rw [Option.map_some, (h2 b rfl).1]
    rw [this]
    exact ⟨rfl, rfl⟩
  | map | avg | flat | rep | lin | chan | gen => exact ⟨rfl, rfl⟩

omit [Field F] in
theorem stepPar_some {opt : F → F → F} {θ : Nat → Tensor F} {gr : Nat → Option (Tensor F)} {p : Nat} {g : Tensor F}
    (h : gr p = some g) : stepPar opt θ gr p = updT opt (θ p) g := by rw [stepPar, h]

omit [Field F] in
theorem stepPar_none {opt : F → F → F} {θ : Nat → Tensor F} {gr : Nat → Option (Tensor F)} {p : Nat}
    (h : gr p = none) : stepPar opt θ gr p = θ p := by rw [stepPar, h]

omit [Field F] in
theorem updT_val {opt : F → F → F} {a g : Tensor F} {l : List Nat} (h : InBounds l a.shape) :
    (updT opt a g).val l = opt (a.val l) (g.val l) := if_pos h

/-- After the update the workers store the parameters after the update. -/
theorem TLayer.Stores.step {x : List Nat × (List Nat → F)} {Y : List Nat → F} {gr : Nat → Nat → Option (Tensor F)}
    (h : l.Stores P θ) (hf : TFits W P L (l.withPar P θ) L') (hg : (l.withPar P θ).Grads P x Y gr) (opt : F → F → F) :
    (l.upd opt x Y).Stores P fun w => stepPar opt (θ w) (gr w) := by
  obtain ⟨s, X⟩ := x
  have hshape : ∀ w p, (stepPar opt (θ w) (gr w) p).shape = (θ w p).shape := fun w p => (tensor_bare.1 (stepPar_bare ..)).1
  have htype : ∀ w p, (stepPar opt (θ w) (gr w) p).dtype = (θ w p).dtype := fun w p => (tensor_bare.1 (stepPar_bare ..)).2
  cases l with
  | map | avg | flat | rep => trivial
  | conv c cw cb C rgw B =>
    obtain ⟨⟨h1, h2⟩, h3, h4⟩ := h
    obtain ⟨⟨z, g1, -, g2⟩, g3, -⟩ := hg
    refine ⟨⟨?_, h2⟩, fun b hb => ?_, fun w hw i => ?_⟩
    · dsimp only
      rw [stepPar_some g1, updT, h1]
      congr 1
      funext l
      split
      · next hl =>
        rw [h2] at hl
        match l, hl with
        | co :: c :: κ, hl => rw [g2 co c κ hl.1 hl.2.1 hl.2.2, if_pos hl]
      · next hl =>
        rw [h2] at hl
        rw [if_neg hl]
    · cases hb' : C.bias with
      | none => simp [hb'] at hb
      | some b0 =>
        obtain ⟨q1, q2⟩ := h3 b0 hb'
        obtain ⟨z, k1, -, k2⟩ := g3 (θ (P.members.getD 0 0) 1) (by simp [hb'])
        simp only [hb', Option.map_some, Option.some.injEq] at hb
        subst hb
        refine ⟨?_, q2⟩
        dsimp only
        rw [stepPar_some k1, updT, q1]
        congr 1
        funext l
        rw [q2]
        split
        · next hl =>
          match l, hl with
          | [co], hl => rw [k2 co hl.1]
        · rfl
    · dsimp only
      rw [htype, htype]
      exact h4 w hw i
  | lin c cy A rgp weight bias =>
    obtain ⟨h1, h2⟩ := h
    obtain ⟨g1, g2, g3⟩ := hg
    cases hf with
    | @lin Po Pi _ _ _ _ _ _ _ hv =>
      have e0 : A.Pw.shape.getD 0 0 = Po := by have : A.Pw.shape = [Po, Pi] := hv.shw; rw [this]; rfl
      have e1 : A.Pw.shape.getD 1 0 = Pi := by have : A.Pw.shape = [Po, Pi] := hv.shw; rw [this]; rfl
      have hl2 : [Po, Pi].length = [A.outFeatures, A.inFeatures].length := rfl
      have hsh : A.Pw.shape = [Po, Pi] := hv.shw
      refine ⟨fun w hw => ⟨(hshape w 0).trans (h1 w hw).1, fun k hk i hi => ?_⟩, fun w hw h0 => ⟨fun hu => ?_, fun k hk => ?_⟩⟩
      · obtain ⟨z, q1, q2, q3⟩ := g1 w hw
        obtain ⟨p, j, ev, hpo, hj⟩ := hv.coordW hw
        have ev : A.Pw.coord w = [p, j] := ev
        have hin : InBounds [p, j] [Po, Pi] := ⟨hpo, hj, trivial⟩
        have q2 : z.shape = (Layout.balanced A.Pw.shape [A.outFeatures, A.inFeatures]).shapeAt (A.Pw.coord w) := q2
        have hz : InBounds [k, i] z.shape := by
          rw [q2, ev, hsh, Layout.balanced_shapeAt hl2 hin]
          rw [e0, ev] at hk
          rw [e1, ev] at hi
          exact ⟨hk, hi, trivial⟩
        have := q3 [k, i] hz
        have this : z.val [k, i] = denseGradW (s.headD 0) X Y (shiftBy
          ((Layout.balanced A.Pw.shape [A.outFeatures, A.inFeatures]).startAt (A.Pw.coord w)) [k, i]) := this
        dsimp only
        rw [stepPar_some q1, updT_val (by rw [(h1 w hw).1]; exact ⟨hk, hi, trivial⟩), (h1 w hw).2 k hk i hi, this, e0, e1,
          ev, hsh, (Layout.balanced_startAt hl2 hin).1]
        rfl
      · exact (hshape w 1).trans ((h2 w hw h0).1 hu)
      · by_cases hu : A.useBias = true
        · obtain ⟨z, q1, q2, q3⟩ := g2 hu w hw h0
          have hz : InBounds [k] z.shape := by rw [q2]; exact ⟨hk, trivial⟩
          dsimp only
          rw [stepPar_some q1, updT_val (by rw [(h2 w hw h0).1 hu]; exact ⟨hk, trivial⟩), (h2 w hw h0).2 k hk, q3 k hz]
          simp [hu]
        · have : gr w 1 = none := by
            cases e : gr w 1 with
            | none => rfl
            | some z => exact absurd ((g3 w 1 z e).2.resolve_left (by decide)).2.1 hu
          dsimp only
          rw [stepPar_none this, (h2 w hw h0).2 k hk]
          simp [hu]
  | chan c cy C weight bias rgp Wt bi =>
    obtain ⟨h1, h2⟩ := h
    obtain ⟨g1, g2, g3⟩ := hg
    refine ⟨fun w hw => ⟨(hshape w 0).trans (h1 w hw).1, fun k hk c hc κ hκ => ?_⟩, fun w hw h0 => ⟨fun hu => ?_, fun k hk => ?_⟩⟩
    · obtain ⟨z, q1, -, q2⟩ := g1 w hw
      dsimp only
      rw [stepPar_some q1, updT_val (by rw [(h1 w hw).1]; exact ⟨hk, hc, hκ⟩), (h1 w hw).2 k hk c hc κ hκ,
        q2 k hk c hc κ hκ]
    · exact (hshape w 1).trans ((h2 w hw h0).1 hu)
    · by_cases hu : C.useBias = true
      · obtain ⟨z, q1, -, q2⟩ := g2 hu w hw h0
        dsimp only
        rw [stepPar_some q1, updT_val (by rw [(h2 w hw h0).1 hu]; exact ⟨hk, trivial⟩), (h2 w hw h0).2 k hk, q2 k hk]
        simp [hu]
      · have : gr w 1 = none := by
          cases e : gr w 1 with
          | none => rfl
          | some z => exact absurd ((g3 w 1 z e).2.resolve_left (by decide)).2.1 hu
        dsimp only
        rw [stepPar_none this, (h2 w hw h0).2 k hk]
        simp [hu]
  | gen c cw cb cx cy C weight bias rgp B Wt bi =>
    obtain ⟨h1, h2⟩ := h
    obtain ⟨g1, g2, g3⟩ := hg
    refine ⟨fun w hw hd => ⟨(hshape w 0).trans (h1 w hw hd).1, fun k hk c hc κ hκ => ?_⟩,
      fun w hw h0 => ⟨fun hu => ?_, fun k hk => ?_⟩⟩
    · obtain ⟨z, q1, -, q2⟩ := g1 w hw hd
      dsimp only
      rw [stepPar_some q1, updT_val (by rw [(h1 w hw hd).1]; exact ⟨hk, hc, hκ⟩), (h1 w hw hd).2 k hk c hc κ hκ,
        q2 k hk c hc κ hκ]
    · exact (hshape w 1).trans ((h2 w hw h0).1 hu)
    · by_cases hu : C.useBias = true
      · obtain ⟨z, q1, -, q2⟩ := g2 hu w hw h0
        dsimp only
        rw [stepPar_some q1, updT_val (by rw [(h2 w hw h0).1 hu]; exact ⟨hk, trivial⟩), (h2 w hw h0).2 k hk, q2 k hk]
        simp [hu]
      · have : gr w 1 = none := by
          cases e : gr w 1 with
          | none => rfl
          | some z =>
            rcases (g3 w 1 z e).2 with h | h
            · cases h.1
            · exact absurd h.2.1 hu
        dsimp only
        rw [stepPar_none this, (h2 w hw h0).2 k hk]
        simp [hu]

/-! ## All layers -/

variable {P' : Cart} {ls G : List (TLayer F β)} {T : Nat → Nat → Nat → Tensor F}

omit [Field F] in
theorem TNetFits.kin (h : TNetFits W P L ls P' L') : ∀ {G : List (TLayer F β)} {i : Nat}, List.Forall₂ Kin ls G →
    StoresNet P T i G → TNetFits W P L (netWith P T i G) P' L' := by
  induction h with
  | nil => intro G i hk _; cases hk; exact .nil
  | @cons P L L' P'' L'' l ls h hs ih =>
    intro G i hk hst
    cases hk with
    | @cons _ g _ G k1 k2 =>
      refine .cons (h.kin k1 hst.1) ?_
      rw [TLayer.out_withPar]
      have := ih (i := i + 1) k2
      rw [← k1.out P] at this
      exact this hst.2

theorem netMods_kin {ls G : List (TLayer F β)} (h : List.Forall₂ Kin ls G) : ∀ (P : Cart) (i : Nat),
    netMods P (netWith P T i G) = netMods P (netWith P T i ls) := by
  induction h with
  | nil => exact fun _ _ => rfl
  | @cons l g ls G h _ ih =>
    intro P i
    simp only [netWith, netMods, TLayer.out_withPar, (h.parts P _).1, h.out P, ih]

theorem netBack_kin {ls G : List (TLayer F β)} (h : List.Forall₂ Kin ls G) : ∀ (P : Cart) (i : Nat),
    netBack P (netWith P T i G) = netBack P (netWith P T i ls) := by
  induction h with
  | nil => exact fun _ _ => rfl
  | @cons l g ls G h _ ih =>
    intro P i
    obtain ⟨-, -, h1, h2, h3⟩ := h.parts P fun w => T w i
    simp only [netWith, netBack, TLayer.back, TLayer.out_withPar, h1, h2, h3, h.out P, ih]

theorem deadBack_kin {ls G : List (TLayer F β)} (h : List.Forall₂ Kin ls G) : ∀ (P : Cart) (i : Nat),
    deadBack P (netWith P T i G) = deadBack P (netWith P T i ls) := by
  induction h with
  | nil => exact fun _ _ => rfl
  | @cons l g ls G h hs ih =>
    intro P i
    obtain ⟨-, h0, h1, h2, -⟩ := h.parts P fun w => T w i
    simp only [netWith, deadBack, TLayer.out_withPar, plain_withPar, h.plain, h0, h1, h2, h.out P, ih, netBack_kin hs]

omit [Field F] in
theorem oneTypes_kin {ls G : List (TLayer F β)} (h : List.Forall₂ Kin ls G) : ∀ (P : Cart) (i : Nat), StoresNet P T i G →
    OneTypes P T i ls := by
  induction h with
  | nil => exact fun _ _ _ => trivial
  | @cons l g ls G h _ ih =>
    intro P i hs
    refine ⟨?_, ih _ _ (h.out P ▸ hs.2)⟩
    have := hs.1.oneType
    cases h <;> exact this

theorem StoresNet.seq (ls : List (TLayer F β)) : ∀ (P : Cart) (i : Nat) (x : List Nat × (List Nat → F)), StoresNet P T i ls →
    tseqNet (netWith P T i ls) x = tseqNet ls x := by
  induction ls with
  | nil => exact fun _ _ _ _ => rfl
  | cons l ls ih =>
    intro P i x h
    have := ih (l.out P) (i + 1) (l.seq x) h.2
    show tseqNet (netWith (l.out P) T (i + 1) ls) ((l.withPar P fun w => T w i).seq x) = tseqNet ls (l.seq x)
    rw [h.1.seq_adj.1, this]

theorem StoresNet.adj (ls : List (TLayer F β)) : ∀ (P : Cart) (i : Nat) (x : List Nat × (List Nat → F)) (Y : List Nat → F),
    StoresNet P T i ls → tadjNet (netWith P T i ls) x Y = tadjNet ls x Y := by
  induction ls with
  | nil => exact fun _ _ _ _ _ => rfl
  | cons l ls ih =>
    intro P i x Y h
    simp only [netWith, tadjNet, h.1.seq_adj.1, h.1.seq_adj.2, ih _ _ _ Y h.2]

theorem kin_updNet (opt : F → F → F) (Y : List Nat → F) (ls : List (TLayer F β)) : ∀ x : List Nat × (List Nat → F),
    List.Forall₂ Kin ls (updNet opt ls x Y) := by
  induction ls with
  | nil => exact fun _ => .nil
  | cons l ls ih => exact fun x => .cons (kin_upd ..) (ih _)

/-- After the update the workers store the parameters after the update. -/
theorem StoresNet.step {T' : Nat → Nat → Nat → Tensor F} {Y : List Nat → F} (opt : F → F → F) (ls : List (TLayer F β)) :
    ∀ {P : Cart} {L : Layout} {i : Nat} {x : List Nat × (List Nat → F)} {grs : List (Nat → Nat → Option (Tensor F))},
    StoresNet P T i ls → TNetFits W P L (netWith P T i ls) P' L' → NetGrads P (netWith P T i ls) x Y grs →
    (∀ w j, i ≤ j → T' w j = stepPar opt (T w j) ((grs[j - i]?).elim (fun _ => none) fun gr => gr w)) →
    StoresNet P T' i (updNet opt ls x Y) := by
  induction ls with
  | nil => exact fun _ _ _ _ => trivial
  | cons l ls ih =>
    intro P L i x grs h hf hg hT
    obtain ⟨gr, grs, rfl, g1, g2⟩ := hg
    cases hf with
    | cons f1 f2 =>
      rw [h.1.seq_adj.1] at g1 g2
      rw [TLayer.out_withPar] at f2 g2
      rw [StoresNet.adj ls _ _ _ _ h.2] at g1
      constructor
      · have e : (fun w => T' w i) = fun w => stepPar opt (T w i) (gr w) := by
          funext w
          rw [hT w i (Nat.le_refl i), Nat.sub_self]
          rfl
        rw [e]
        exact h.1.step f1 g1 opt
      · rw [(kin_upd opt l x _).out P]
        refine ih h.2 f2 g2 fun w j hj => ?_
        rw [hT w j (by omega), show j - i = (j - (i + 1)) + 1 by omega, List.getElem?_cons_succ]

end

end Verif.Net
