import Verif.Net.UpBack
import Verif.Net.Train
import Verif.Net.NormBack

/-!
# Networks in training with interpolation and batch norm

Interpolation needs ordered scalars with a floor function, the layers of `Train` do not.  So the layers here are those of
`Train`, interpolations (`nn/upsampling.py`) or batch norms (`nn/batchnorm.py`).
-/

namespace Verif.Net

variable {F β : Type}

/-- A layer of a network in training with interpolations and batch norms. -/
inductive XLayer (F β : Type) where
  /-- a layer of `Train` -/
  | base (l : TLayer F β)
  /-- `nn/upsampling.py`; `gy` is the global shape of the result, which only the specification uses -/
  | up (c : Nat) (size : Option (List Nat)) (p : InterpParams F) (B : Bufs β) (gy : List Nat)
  /-- `nn/batchnorm.py`; the running statistics `sq` and the parameters `gamma`, `beta` of the sequential layer are used by
  the specification alone -/
  | norm (c cs cb ca : Nat) (N : NormLayer F) (sq : SeqState F) (gamma beta : Nat → F)

section
variable [Field F] [LinearOrder F] [FloorRing F]

/-- The forward pass of a layer whose input lies on `P`, cut. -/
def XLayer.cuts (P : Cart) : XLayer F β → List (Prog (NSt F) (NMsg F))
  | .base l => l.cuts P
  | .up c size p B _ => upCuts c P size p B
  | .norm c cs cb ca N _ _ _ => normCuts c cs cb ca N

/-- The adjoint of a layer. -/
def XLayer.adjProg (P : Cart) : XLayer F β → CProg (List (NSt F)) (NSt F) (NMsg F)
  | .base l => l.adjProg P
  | .up c size p B _ => upBack c P size p B
  | .norm _ cs cb ca N _ _ _ => normBack cs cb ca N

omit [Field F] [LinearOrder F] [FloorRing F] in
/-- Has worker `w` a tensor for parameter `i` that requires gradients?  Interpolation has no parameters
(`upsampling.py:61-114`); batch norm has `gamma` (0) and `beta` (1), without entries on the workers that do not store them
(`batchnorm.py:95-101`). -/
def XLayer.has (P : Cart) : XLayer F β → Nat → Nat → Bool
  | .base l => l.has P
  | .up _ _ _ _ _ => fun _ _ => false
  | .norm _ _ _ _ N _ _ _ => fun w i => P.members.contains w && N.M.affine && N.rgp && (i == 0 || i == 1)

/-- The backward pass of a layer. -/
def XLayer.back (P : Cart) (l : XLayer F β) : Prog (BSt F) (NMsg F) :=
  backProg (l.adjProg P) ++ [dropPhase (l.cuts P).length (l.has P)]

omit [Field F] [LinearOrder F] [FloorRing F] in
/-- The partition of its output. -/
def XLayer.out (P : Cart) : XLayer F β → Cart
  | .base l => l.out P
  | .up _ _ _ _ _ => P
  | .norm _ _ _ _ _ _ _ _ => P

/-- The forward pass of a network, cut. -/
def xnetCuts (P : Cart) : List (XLayer F β) → List (Prog (NSt F) (NMsg F))
  | [] => []
  | l :: ls => l.cuts P ++ xnetCuts (l.out P) ls

/-- The backward pass of a network. -/
def xnetBack (P : Cart) : List (XLayer F β) → Prog (BSt F) (NMsg F)
  | [] => []
  | l :: ls => xnetBack (l.out P) ls ++ l.back P

/-- Forward and backward pass. -/
def xtrainProg (P : Cart) (ls : List (XLayer F β)) (seed : Nat → Tensor F → Tensor F) : Prog (BSt F) (NMsg F) :=
  tapeProg (xnetCuts P ls) ++ seedPhase seed :: xnetBack P ls

/-! ## Specification: the sequential network and its gradients -/

/-- Shape and entries of the sequential result of a layer (the dtype does not matter here). -/
def XLayer.seq : XLayer F β → List Nat × (List Nat → F) → List Nat × (List Nat → F)
  | .base l, x => l.seq x
  | .up _ _ p _ gy, (s, X) => (gy, torchInterp p s gy X)
  | .norm _ _ _ _ N sq gamma beta, (s, X) => (s, (seqNorm N.sqrt N.M.eps N.M.affine gamma beta
      (seqUsed N.M.track N.training sq ⟨s, .float32, X⟩) ⟨s, .float32, X⟩).val)

/-- The gradient of the input of a layer, if `Y` is the gradient of its output. -/
def XLayer.adj : XLayer F β → List Nat × (List Nat → F) → (List Nat → F) → List Nat → F
  | .base l, x, Y => l.adj x Y
  | .up _ _ p _ gy, (s, _), Y => torchInterpGrad p s gy Y
  | .norm _ _ _ _ N sq gamma _, (s, X), Y => (seqNormGrad N.sqrt N.M.eps N.M.affine gamma (N.training || !N.M.track)
      (seqUsed N.M.track N.training sq ⟨s, .float32, X⟩) ⟨s, .float32, X⟩ ⟨s, .float32, Y⟩).val

omit [LinearOrder F] [FloorRing F] in
/-- The worker's gradients of the parameters of a layer. -/
def XLayer.Grads (P : Cart) : XLayer F β → List Nat × (List Nat → F) → (List Nat → F) →
    (Nat → Nat → Option (Tensor F)) → Prop
  | .base l, x, Y, gr => l.Grads P x Y gr
  | .up _ _ _ _ _, _, _, gr => ∀ w i, gr w i = none
  | .norm _ _ _ _ N sq _ _, (s, X), Y, gr =>
    (N.M.affine = true → N.rgp = true → ∀ r ∈ N.M.Psum.members,
      (∃ z, gr r 0 = some z ∧ Held P (channelBlocks P N.M.numFeatures) (channelSum (timesT ⟨s, .float32, Y⟩
        (seqHat N.sqrt N.M.eps (seqUsed N.M.track N.training sq ⟨s, .float32, X⟩) ⟨s, .float32, X⟩))) r z) ∧
      ∃ z, gr r 1 = some z ∧ Held P (channelBlocks P N.M.numFeatures) (channelSum ⟨s, .float32, Y⟩) r z) ∧
    ∀ w i z, gr w i = some z → w ∈ P.members ∧ N.M.affine = true ∧ N.rgp = true ∧ (i = 0 ∨ i = 1) ∧
      (w ∉ N.M.Psum.members → z.shape.prod = 0)

/-- The sequential network. -/
def xseqNet (ls : List (XLayer F β)) (x : List Nat × (List Nat → F)) : List Nat × (List Nat → F) :=
  ls.foldl (fun x l => l.seq x) x

/-- The gradient of the input of the sequential network. -/
def xadjNet : List (XLayer F β) → List Nat × (List Nat → F) → (List Nat → F) → List Nat → F
  | [], _, Y => Y
  | l :: ls, x, Y => l.adj x (xadjNet ls (l.seq x) Y)

/-- The gradients of all parameters. -/
def XNetGrads : Cart → List (XLayer F β) → List Nat × (List Nat → F) → (List Nat → F) →
    List (Nat → Nat → Option (Tensor F)) → Prop
  | _, [], _, _, grs => grs = []
  | P, l :: ls, x, Y, grs => ∃ gr grs', grs = gr :: grs' ∧ l.Grads P x (xadjNet ls (l.seq x) Y) gr ∧
    XNetGrads (l.out P) ls (l.seq x) Y grs'

/-! ## What the layers ask of their callers -/

/-- A layer may follow with its input cut as `L` on `P`; its output is cut as the last argument says.  Interpolation asks
for an evenly cut input and halos no wider than the neighbour's block (`C50`), batch norm for parameters of the dtype `t` of
the input and an input whose channels are cut as they are. -/
inductive XFits (W : List Nat) (t : TorchDtype) : Cart → Layout → XLayer F β → Layout → Prop
  | base {P L l L'} (h : TFits W P L l L') : XFits W t P L (.base l) L'
  | up {P : Cart} {gx gy : List Nat} (c : Nat) {size : Option (List Nat)} {p : InterpParams F} (B : Bufs β)
      (hc : UpCase P size p gx gy) (ho : HasOutputs P gy) (hf : (upPlan P p gx gy).Fits) (hl : gx.length = P.shape.length) :
      XFits W t P (Layout.balanced P.shape gx) (.up c size p B gy) (Layout.balanced P.shape gy)
  | norm {L : Layout} (c cs cb ca : Nat) {N : NormLayer F} {sq : SeqState F} {gamma beta : Nat → F}
      (h : NormOK N L t sq gamma beta) (hb : N.M.affine = true ∨ N.M.track = true → L.getD 1 [] = channelBlocks N.M.P N.M.numFeatures) :
      XFits W t N.M.P L (.norm c cs cb ca N sq gamma beta) L

/-- The layers of a network may follow each other. -/
inductive XNetFits (W : List Nat) (t : TorchDtype) : Cart → Layout → List (XLayer F β) → Cart → Layout → Prop
  | nil {P L} : XNetFits W t P L [] P L
  | cons {P L L' P'' L''} {l : XLayer F β} {ls : List (XLayer F β)} (h : XFits W t P L l L')
      (hs : XNetFits W t (l.out P) L' ls P'' L'') : XNetFits W t P L (l :: ls) P'' L''

/-! ## One layer -/

variable {W : List Nat} {P P' : Cart} {L L' : Layout} {s : List Nat} {l : XLayer F β} {ls : List (XLayer F β)} {t : TorchDtype}
  {X Y : List Nat → F}

theorem XFits.placed (h : XFits W t P L l L') (hp : Placed W P L s) (x : List Nat → F) :
    Placed W (l.out P) L' (l.seq (s, x)).1 := by
  cases h with
  | base h => exact h.placed hp x
  | up c B hc ho hf hl =>
    obtain ⟨wf, lay, sub, glob⟩ := hp
    exact placed_balanced wf sub (hl.symm.trans hc.out.shape.2.symm)
  | norm => exact hp

variable [IsStrictOrderedRing F]

theorem XFits.realises (h : XFits W t P L l L') (ht : t = .float32 ∨ t = .float64) (hp : Placed W P L s) :
    Realises W (l.cuts P).flatten (Holds W P L t X) (Holds W (l.out P) L' t (l.seq (s, X)).2) := by
  cases h with
  | base h => exact h.realises hp
  | up c B hc ho hf hl =>
    obtain ⟨wf, lay, sub, glob⟩ := hp
    rw [Layout.balanced_global hl.symm wf.pos] at glob
    subst glob
    exact fun S hS => up_run c B ht hc hf wf hl sub hS
  | norm c cs cb ca h hb =>
    obtain ⟨wf, lay, sub, glob⟩ := hp
    subst glob
    intro S hS
    obtain ⟨a, b, -⟩ := bnorm_run c cs cb ca h lay sub hS
    exact ⟨a, b⟩

/-- The adjoint of a layer. -/
theorem XFits.adjoint (h : XFits W t P L l L') (ht : t = .float32 ∨ t = .float64) (hp : Placed W P L s) {S G : Nat → NSt F}
    {T : Nat → List (NSt F)} (hS : Holds W P L t X S) (hG : HoldsG W (l.out P) L' t Y G)
    (hT : ∀ w ∈ W, ∃ rest, T w = snaps (l.cuts P) S w ++ rest) :
    ProgOK W ((l.adjProg P).at T) G ∧ HoldsG W P L t (l.adj (s, X) Y) (run ((l.adjProg P).at T) G) ∧
    l.Grads P (s, X) Y fun w i => if l.has P w i then some ((run ((l.adjProg P).at T) G w).par i).1 else none := by
  cases h with
  | base h => exact h.adjoint hp hS hG hT
  | up c B hc ho hf hl =>
    obtain ⟨wf, lay, sub, glob⟩ := hp
    rw [Layout.balanced_global hl.symm wf.pos] at glob
    subst glob
    obtain ⟨a, b⟩ := upBack_run c B ht hc ho hf wf hl sub hS hG hT
    exact ⟨a, b, fun _ _ => rfl⟩
  | @norm L c cs cb ca N sq gamma beta h hb =>
    obtain ⟨wf, lay, sub, glob⟩ := hp
    subst glob
    obtain ⟨a, b, g⟩ := normBack_run c cs cb ca h lay sub hS hG hT
    have has : ∀ w i, (XLayer.norm c cs cb ca N sq gamma beta : XLayer F β).has N.M.P w i = true ↔
        w ∈ N.M.P.members ∧ N.M.affine = true ∧ N.rgp = true ∧ (i = 0 ∨ i = 1) := by
      intro w i
      simp [XLayer.has, and_assoc]
    refine ⟨a, b, fun ha hr r hm => ⟨⟨_, if_pos ((has r 0).2 ⟨h.made.sum.sub r hm, ha, hr, .inl rfl⟩), ?_⟩,
      _, if_pos ((has r 1).2 ⟨h.made.sum.sub r hm, ha, hr, .inr rfl⟩), ?_⟩, fun w i z e => ?_⟩
    · have := (g.gamma ha r hm).2
      rw [hb (.inl ha)] at this
      exact this
    · have := (g.beta ha r hm).2
      rw [hb (.inl ha)] at this
      exact this
    · by_cases hh : (XLayer.norm c cs cb ca N sq gamma beta : XLayer F β).has N.M.P w i = true
      · simp only [if_pos hh] at e
        obtain ⟨h1, h2, h3, h4⟩ := (has w i).1 hh
        refine ⟨h1, h2, h3, h4, fun hn => ?_⟩
        rw [← Option.some.inj e]
        obtain ⟨q0, q1⟩ := g.others h2 w h1 hn
        rcases h4 with rfl | rfl
        · exact q0
        · exact q1
      · simp only [if_neg hh] at e
        cases e

/-- The backward pass of a layer. -/
theorem XFits.back (h : XFits W t P L l L') (ht : t = .float32 ∨ t = .float64) (hp : Placed W P L s) {S : Nat → NSt F}
    {B : Nat → BSt F} (hS : Holds W P L t X S) (hG : HoldsG W (l.out P) L' t Y fun w => (B w).s)
    {rest : Nat → List (NSt F)} (hT : ∀ w ∈ W, (B w).tape = snaps (l.cuts P) S w ++ rest w) :
    ProgOK W (l.back P) B ∧ HoldsG W P L t (l.adj (s, X) Y) (fun w => (run (l.back P) B w).s) ∧
    (∀ w ∈ W, (run (l.back P) B w).tape = rest w) ∧
    ∃ gr, l.Grads P (s, X) Y gr ∧ ∀ w, (run (l.back P) B w).grads = gr w :: (B w).grads := by
  obtain ⟨a1, a2, a3⟩ := h.adjoint ht hp (T := fun w => (B w).tape) hS hG fun w hw => ⟨_, hT w hw⟩
  obtain ⟨b1, b2⟩ := back_run (l.adjProg P) (l.cuts P).length (l.has P) B a1
  refine ⟨b1, ?_, fun w hw => ?_, _, a3, fun w => ?_⟩
  · have e : (fun w => (run (l.back P) B w).s) = run ((l.adjProg P).at fun w => (B w).tape) fun w => (B w).s := by
      funext w
      unfold XLayer.back
      rw [b2 w]
    rw [e]
    exact a2
  · unfold XLayer.back
    rw [b2 w]
    show (B w).tape.drop _ = _
    rw [hT w hw, List.drop_append_of_le_length (by rw [length_snaps]), List.drop_of_length_le (by rw [length_snaps]),
      List.nil_append]
  · unfold XLayer.back
    rw [b2 w]

/-! ## All layers -/

theorem XNetFits.forward (h : XNetFits W t P L ls P' L') (ht : t = .float32 ∨ t = .float64) :
    ∀ {s : List Nat} {X : List Nat → F}, Placed W P L s →
    Placed W P' L' (xseqNet ls (s, X)).1 ∧
    Realises W (xnetCuts P ls).flatten (Holds W P L t X) (Holds W P' L' t (xseqNet ls (s, X)).2) := by
  induction h with
  | nil => exact fun hp => ⟨hp, Realises.nil _⟩
  | @cons P L L' P'' L'' l ls h hs ih =>
    intro s X hp
    obtain ⟨h1, h2⟩ := ih (X := (l.seq (s, X)).2) (h.placed hp X)
    refine ⟨h1, ?_⟩
    show Realises W (l.cuts P ++ xnetCuts (l.out P) ls).flatten _ _
    rw [List.flatten_append]
    exact (h.realises ht hp).seq h2

theorem XNetFits.backward (h : XNetFits W t P L ls P' L') (ht : t = .float32 ∨ t = .float64) :
    ∀ {s : List Nat} {X : List Nat → F} {S : Nat → NSt F}
    {B : Nat → BSt F} {rest : Nat → List (NSt F)}, Placed W P L s → Holds W P L t X S →
    HoldsG W P' L' t Y (fun w => (B w).s) → (∀ w ∈ W, (B w).tape = snaps (xnetCuts P ls) S w ++ rest w) →
    ProgOK W (xnetBack P ls) B ∧ HoldsG W P L t (xadjNet ls (s, X) Y) (fun w => (run (xnetBack P ls) B w).s) ∧
    (∀ w ∈ W, (run (xnetBack P ls) B w).tape = rest w) ∧
    ∃ grs, XNetGrads P ls (s, X) Y grs ∧
      ∀ w, (run (xnetBack P ls) B w).grads = grs.map (fun gr => gr w) ++ (B w).grads := by
  induction h with
  | nil =>
    intro s X S B rest _ _ hG hT
    exact ⟨trivial, hG, fun w hw => hT w hw, [], rfl, fun _ => rfl⟩
  | @cons P L L' P'' L'' l ls h hs ih =>
    intro s X S B rest hp hS hG hT
    have hS' := (h.realises (X := X) ht hp S hS).2
    obtain ⟨a1, a2, a3, grs, a4, a5⟩ := ih (s := (l.seq (s, X)).1) (B := B) (rest := fun w => snaps (l.cuts P) S w ++ rest w)
      (h.placed hp X) hS' hG fun w hw => by
        rw [hT w hw]
        show snaps (l.cuts P ++ xnetCuts (l.out P) ls) S w ++ _ = _
        rw [snaps_append, List.append_assoc]
    obtain ⟨b1, b2, b3, gr, b4, b5⟩ := h.back ht hp (B := run (xnetBack (l.out P) ls) B) hS a2 a3
    have hrun : run (xnetBack P (l :: ls)) B = run (l.back P) (run (xnetBack (l.out P) ls) B) := run_append ..
    refine ⟨progOK_append.2 ⟨a1, b1⟩, ?_, fun w hw => ?_, gr :: grs, ⟨gr, grs, rfl, b4, a4⟩, fun w => ?_⟩
    · rw [hrun]
      exact b2
    · rw [hrun]
      exact b3 w hw
    · rw [hrun, b5 w, a5 w]
      rfl

/-- The whole step. -/
theorem XNetFits.train (h : XNetFits W t P L ls P' L') (ht : t = .float32 ∨ t = .float64) {S : Nat → NSt F}
    {seed : Nat → Tensor F → Tensor F} (hp : Placed W P L s) (hS : Holds W P L t X S)
    (hseed : ∀ Z, Holds W P' L' t (xseqNet ls (s, X)).2 Z → HoldsG W P' L' t Y fun w => { Z w with t := seed w (Z w).t }) :
    ProgOK W (xtrainProg P ls seed) (fun w => ⟨S w, [], []⟩) ∧
    HoldsG W P L t (xadjNet ls (s, X) Y) (fun w => (run (xtrainProg P ls seed) (fun w => ⟨S w, [], []⟩) w).s) ∧
    ∃ grs, XNetGrads P ls (s, X) Y grs ∧
      ∀ w, (run (xtrainProg P ls seed) (fun w => ⟨S w, [], []⟩) w).grads = grs.map fun gr => gr w := by
  obtain ⟨-, hr⟩ := h.forward (X := X) ht hp
  obtain ⟨o1, hH⟩ := hr S hS
  obtain ⟨o2, r2⟩ := tape_run (xnetCuts P ls) (fun w => (⟨S w, [], []⟩ : BSt F)) o1
  generalize hB : run (tapeProg (xnetCuts P ls)) (fun w => (⟨S w, [], []⟩ : BSt F)) = B at r2
  obtain ⟨a1, a2, -, grs, a4, a5⟩ := h.backward (B := sync (seedPhase seed) B) (rest := fun _ => []) ht hp hS (by
      have := hseed _ hH
      have e : (fun w => (sync (seedPhase seed) B w).s) = fun w => { run (xnetCuts P ls).flatten S w with
          t := seed w (run (xnetCuts P ls).flatten S w).t } := by
        funext w
        show ({ (B w).s with t := seed w (B w).s.t } : NSt F) = _
        rw [r2 w]
      rw [e]
      exact this) fun w hw => by
        show (B w).tape = _
        rw [r2 w]
  have hrun : run (xtrainProg P ls seed) (fun w => (⟨S w, [], []⟩ : BSt F)) = run (xnetBack P ls) (sync (seedPhase seed) B) := by
    unfold xtrainProg
    rw [run_append, hB]
    rfl
  refine ⟨progOK_append.2 ⟨o2, ?_⟩, ?_, grs, a4, fun w => ?_⟩
  · rw [hB]
    exact ⟨localPhase_ok _, a1⟩
  · rw [hrun]
    exact a2
  · rw [hrun, a5 w]
    show _ ++ (B w).grads = _
    rw [r2 w, List.append_nil]

end

end Verif.Net
