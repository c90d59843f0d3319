import Verif.Net.Tape
import Verif.Net.Stack

/-!
# Networks: the adjoints of `Broadcast` and `SumReduce`, and of the layers made of them

`functional/broadcast.py:134-230`, `functional/sum_reduce.py:140-230` as programs of the network machine, with the
context the forward pass has kept.
-/

namespace Verif.Net

variable {F C : Type}

/-- Structure of the tensor kept as entry `i` of the tape. -/
def ownAt (i : Nat) (T : List (NSt F)) : Info := (T[i]?.map NSt.own).getD noInfo

/-- Received structure kept as entry `i` of the tape. -/
def strAt (i : Nat) (T : List (NSt F)) : Info := (T[i]?.map NSt.str).getD noInfo

section
variable [AddCommMonoid F]

/-- The adjoint of `Broadcast` (`functional/broadcast.py:180-230`): a sum-reduction.  `lf`: the kept structure of the
output, `rt`: of the input.  No structures are exchanged. -/
def bcastBack (c : Nat) (L : PairLayer) (ℓ : Lens (NSt F) (Tensor F × Bool)) (lf rt : C → Info) :
    CProg C (NSt F) (NMsg F) :=
  if L.identity then [] else
    [fun T => sumPhase c (fun w => recvOf (L.bparts w)) (fun w => sendOf (L.bparts w)) L.preserveBatch ℓ
      (fun _ _ => lf T) fun _ _ => rt T]

/-- The adjoint of `SumReduce` (`functional/sum_reduce.py:188-230`): a broadcast.  `buf`: the kept structure of the
input. -/
def reduceBack (c : Nat) (L : PairLayer) (ℓ : Lens (NSt F) (Tensor F × Bool)) (buf : C → Info) :
    CProg C (NSt F) (NMsg F) :=
  if L.identity then [] else
    [fun T => copyPhase c (fun w => recvOf (L.rparts w)) (fun w => sendOf (L.rparts w)) L.preserveBatch ℓ
      fun _ _ => buf T]

variable {W : List Nat} {L : PairLayer} {ℓ : Lens (NSt F) (Tensor F × Bool)} {S : Nat → NSt F} {T : Nat → C}

/-- Every source gets the sum over its destinations. -/
theorem bcastBack_run (c : Nat) (h : BcastLayer L) (hx : ∀ w ∈ L.Px.members, w ∈ W) (hy : ∀ w ∈ L.Py.members, w ∈ W)
    (hb : HasBatch L fun w => (ℓ.get (S w)).1) {lf rt : C → Info}
    (hi : ∀ v ∈ L.Py.members, Info.same (infoOf ℓ (S v)) (rt (T (L.broot v))))
    (hl : L.identity = false → ∀ r ∈ L.Px.members, r ∈ L.Py.members → L.broot r = r →
      Info.same (lf (T r)) (rt (T r))) :
    ProgOK W ((bcastBack c L ℓ lf rt).at T) S ∧ ∃ Y : Nat → Tensor F × Bool,
      (∀ w ∈ W, run ((bcastBack c L ℓ lf rt).at T) S w = ℓ.set (Y w) (S w)) ∧
      (∀ r ∈ L.Px.members, (Y r).1 = ⟨(rt (T r)).1, (rt (T r)).2.1, fun j => ((L.Py.members.filter fun v =>
        decide (L.broot v = r)).map fun v => (ℓ.get (S v)).1.val j).sum⟩) ∧
      (∀ w ∈ L.Py.members, w ∉ L.Px.members → (Y w).1.shape.prod = 0) ∧
      ∀ w, w ∉ L.Px.members → w ∉ L.Py.members → Y w = ℓ.get (S w) := by
  unfold bcastBack
  cases hid : L.identity with
  | true =>
    obtain ⟨h1, h2⟩ := PairLayer.identity_iff.1 hid
    have e := h.same h1
    have hself : ∀ v ∈ L.Py.members, L.broot v = v := fun v hv => by
      unfold PairLayer.broot
      exact root_identity h.valid e h2 hv
    refine ⟨trivial, fun w => ℓ.get (S w), fun w _ => (ℓ.set_get _).symm, fun r hr => ?_, fun w hw hn => ?_, fun _ _ _ => rfl⟩
    · have hr' : r ∈ L.Py.members := e ▸ hr
      have hf : (L.Py.members.filter fun v => decide (L.broot v = r)) = [r] := by
        rw [List.filter_congr (q := fun v => v == r) fun v hv => by rw [hself v hv]; rfl,
          List.filter_beq, List.count_eq_one_of_mem h.valid.wfd.nodup hr']
        rfl
      have := hi r hr'
      rw [hself r hr'] at this
      rw [hf, ← this.1, ← this.2]
      simp [infoOf]
    · exact absurd (e ▸ hw) hn
  | false =>
    rw [if_neg (by simp)]
    have st : Star L.Px.members L.Py.members L.broot (grp (groupUnion L.Px.members L.Py.members)
        (colS L.Px L.Py L.ts L.td) (colD L.Px L.Py L.ts L.td)) (fun w => sendOf (L.bparts w))
        fun w => recvOf (L.bparts w) := bcast_star h.valid
    obtain ⟨o, Y, r1, y1, y2, y3⟩ := sum_run (c := c) (ℓ := ℓ) (S := S) (pb := L.preserveBatch) st h.valid.wfd.nodup hx hy
      (lf := fun w _ => lf (T w)) (rt := fun w _ => rt (T w)) (fun u hu e => hb e u hu) hi (hl hid)
    exact ⟨⟨o, trivial⟩, Y, r1, fun r hr => by rw [y1 r hr], fun w h1 h2 => (y2 w h1 h2).prod, y3⟩

/-- Every source gets the tensor of its destination. -/
theorem reduceBack_run (c : Nat) (h : ReduceLayer L) (hx : ∀ w ∈ L.Px.members, w ∈ W) (hy : ∀ w ∈ L.Py.members, w ∈ W)
    (hb : HasBatch L fun w => (ℓ.get (S w)).1) {buf : C → Info}
    (hi : ∀ v ∈ L.Px.members, Info.same (buf (T v)) (infoOf ℓ (S (L.rroot v)))) :
    ProgOK W ((reduceBack c L ℓ buf).at T) S ∧ ∃ Y : Nat → Tensor F × Bool,
      (∀ w ∈ W, run ((reduceBack c L ℓ buf).at T) S w = ℓ.set (Y w) (S w)) ∧
      (∀ v ∈ L.Px.members, (Y v).1 = (ℓ.get (S (L.rroot v))).1) ∧
      (∀ w ∈ L.Py.members, w ∉ L.Px.members → (Y w).1.shape.prod = 0) ∧
      ∀ w, w ∉ L.Px.members → w ∉ L.Py.members → Y w = ℓ.get (S w) := by
  unfold reduceBack
  cases hid : L.identity with
  | true =>
    obtain ⟨h1, h2⟩ := PairLayer.identity_iff.1 hid
    have e := h.same h1
    have hself : ∀ v ∈ L.Px.members, L.rroot v = v := fun v hv => by
      unfold PairLayer.rroot
      exact root_identity h.valid e.symm (h2.imp (fun h => e ▸ h) Eq.symm) hv
    exact ⟨trivial, fun w => ℓ.get (S w), fun w _ => (ℓ.set_get _).symm, fun v hv => by rw [hself v hv],
      fun w hw hn => absurd (e ▸ hw) hn, fun _ _ _ => rfl⟩
  | false =>
    rw [if_neg (by simp)]
    have st : Star L.Py.members L.Px.members L.rroot _ (fun w => recvOf (L.rparts w))
        fun w => sendOf (L.rparts w) := reduce_star h.valid
    obtain ⟨o, Y, r1, y1, y2, y3⟩ := copy_run (c := c) (ℓ := ℓ) (S := S) (pb := L.preserveBatch) st hy hx
      (fun u hu e => hb e u hu.symm) (buf := fun w _ => buf (T w)) (fun v hv _ => hi v hv)
    exact ⟨⟨o, trivial⟩, Y, r1, fun v hv => (y1 v hv).1, fun w h1 h2 => (y2 w h1 h2).prod, fun w h1 h2 => y3 w h2 h1⟩

end

/-! ## Broadcast, local operator, sum-reduction -/

/-- PyTorch's gradient of the local operator on the workers `D`; entry `i` of the tape has the input of the operator. -/
def opBackPhase (D : List Nat) (i : Nat) (opG : Nat → NSt F → NSt F → NSt F) (T : List (NSt F)) :
    Nat → NSt F → Phase (NSt F) (NMsg F) :=
  localPhase fun w x =>
    if w ∈ D then
      match T[i]? with
      | some A => opG w A x
      | none => { x with err := true }
    else x

/-- Backward of the three steps (autograd calls the adjoints in reverse order).  The tape: before the sum-reduction,
before the local operator, before the broadcast. -/
def stackBackProg [AddCommMonoid F] (c cy : Nat) (Lx Ly : PairLayer) (opG : Nat → NSt F → NSt F → NSt F) :
    CProg (List (NSt F)) (NSt F) (NMsg F) :=
  reduceBack cy Ly tenLens (ownAt 0) ++ opBackPhase Lx.Py.members 1 opG :: bcastBack c Lx tenLens (strAt 1) (ownAt 2)

/-- The forward pass of the three steps, cut. -/
def stackCuts [AddCommMonoid F] (c cy : Nat) (Lx Ly : PairLayer) (op : Nat → NSt F → Option (Tensor F × Bool)) :
    List (Prog (NSt F) (NMsg F)) :=
  [bcastProg c Lx tenLens, [opPhaseS Lx.Py.members op], reduceProg cy Ly tenLens]

theorem CProg.at_append {C τ μ : Type} (a b : CProg C τ μ) (T : Nat → C) : CProg.at (a ++ b) T = a.at T ++ b.at T :=
  List.map_append

variable [AddCommMonoid F] {W : List Nat} {Lx Ly : PairLayer} {op : Nat → Tensor F → Option (Tensor F)} {S G : Nat → NSt F}
  {O : Nat → Tensor F} {opB : Nat → Tensor F → Tensor F → Tensor F} {T : Nat → List (NSt F)}

theorem stackBack_run (c cy : Nat) (rgp : Bool) (h : Stack Lx Ly (inputsOf S) op O)
    {opS : Nat → NSt F → Option (Tensor F × Bool)}
    (hop : ∀ w ∈ Lx.Py.members, ∀ x : NSt F, x.par = (S w).par → opS w x = (op w x.t).map fun y => (y, x.rg || rgp))
    (hx : ∀ w ∈ Lx.Px.members, w ∈ W) (hw : ∀ w ∈ Lx.Py.members, w ∈ W) (hy : ∀ w ∈ Ly.Py.members, w ∈ W)
    (hg : StackGrads Lx Ly (inputsOf S) O opB fun w => (G w).t) {opG : Nat → NSt F → NSt F → NSt F}
    (hopG : ∀ w ∈ Lx.Py.members, ∀ A x : NSt F, A.par = (S w).par →
      (opG w A x).t = opB w A.t x.t ∧ (opG w A x).err = x.err)
    (hT : ∀ w ∈ W, ∃ rest, T w = snaps (stackCuts c cy Lx Ly opS) S w ++ rest) :
    ProgOK W ((stackBackProg c cy Lx Ly opG).at T) G ∧
    (∀ w ∈ W, (run ((stackBackProg c cy Lx Ly opG).at T) G w).err = (G w).err) ∧
    (∀ r ∈ Lx.Px.members, (run ((stackBackProg c cy Lx Ly opG).at T) G r).t = ⟨(S r).t.shape, (S r).t.dtype, fun i =>
      ((Lx.Py.members.filter fun v => decide (Lx.Feeds r v)).map fun v =>
        (opB v (S r).t (G (Ly.rroot v)).t).val i).sum⟩) ∧
    (∀ w ∈ W, w ∈ Ly.Py.members ∨ w ∈ Lx.Py.members → w ∉ Lx.Px.members →
      (run ((stackBackProg c cy Lx Ly opG).at T) G w).t.shape.prod = 0) ∧
    (∀ w ∈ W, w ∉ Lx.Px.members → w ∉ Lx.Py.members → w ∉ Ly.Py.members →
      (run ((stackBackProg c cy Lx Ly opG).at T) G w).t = (G w).t) ∧
    (∀ w ∈ Lx.Py.members, ∃ A x : NSt F, A.t = (S (Lx.broot w)).t ∧ A.par = (S w).par ∧ x.t = (G (Ly.rroot w)).t ∧
      x.par = (G w).par ∧ (run ((stackBackProg c cy Lx Ly opG).at T) G w).par = (opG w A x).par) ∧
    ∀ w ∈ W, w ∉ Lx.Py.members → (run ((stackBackProg c cy Lx Ly opG).at T) G w).par = (G w).par := by
  -- the forward pass
  have hb1 : HasBatch Lx fun w => (tenLens.get (S w)).1 := fun _ u hu => h.batch u (hu.elim Or.inl fun h => Or.inr (Or.inl h))
  obtain ⟨-, Y, s, r1, y1, y2, y3, hs⟩ := bcast_run c h.bcast hx hw slot_ten hb1
  have hsn : ∀ w, snaps (stackCuts c cy Lx Ly opS) S w =
      [sync (opPhaseS Lx.Py.members opS) (run (bcastProg c Lx tenLens) S) w, run (bcastProg c Lx tenLens) S w, S w] := fun _ => rfl
  simp only [hsn] at hT
  generalize run (bcastProg c Lx tenLens) S = S1 at r1 hT
  have hroot : ∀ v ∈ Lx.Py.members, Lx.broot v ∈ Lx.Px.members := fun v hv => h.bcast.root_mem hv
  have ht1 : ∀ v ∈ Lx.Py.members, (S1 v).t = (S (Lx.broot v)).t ∧ (S1 v).par = (S v).par ∧
      (Lx.identity = false → (S1 v).str = (S (Lx.broot v)).own) := by
    intro v hv
    rw [r1 v (hw v hv)]
    refine ⟨?_, rfl, fun e => hs e v hv⟩
    show (Y v).1 = _
    rw [y1 v hv]
    rfl
  have hS2 : ∀ v ∈ Lx.Py.members, (sync (opPhaseS Lx.Py.members opS) S1 v).t = O v := by
    intro v hv
    show (if v ∈ Lx.Py.members then _ else _ : NSt F).t = _
    obtain ⟨a1, a2, -⟩ := ht1 v hv
    have e : op v (S1 v).t = some (O v) := by
      rw [a1]
      exact h.out v hv _ (hroot v hv) ((h.bcast.rel (hroot v hv) hv).2 rfl)
    rw [if_pos hv, hop v hv (S1 v) a2, e]
    rfl
  generalize sync (opPhaseS Lx.Py.members opS) S1 = S2 at hS2 hT
  have hT0 : ∀ w ∈ W, (ownAt 0 (T w)) = (S2 w).own ∧ (T w)[1]? = some (S1 w) ∧ strAt 1 (T w) = (S1 w).str ∧
      ownAt 2 (T w) = (S w).own := by
    intro w hw
    obtain ⟨rest, e⟩ := hT w hw
    rw [e]
    exact ⟨rfl, rfl, rfl, rfl⟩
  have hPx : ∀ w ∈ Ly.Px.members, w ∈ Lx.Py.members := fun w hw => h.joint ▸ hw
  have hyroot : ∀ v ∈ Lx.Py.members, Ly.rroot v ∈ Ly.Py.members ∧ Ly.Collects (Ly.rroot v) v := fun v hv => by
    have hv' : v ∈ Ly.Px.members := h.joint.symm ▸ hv
    have := h.reduce.root_mem hv'
    exact ⟨this, (h.reduce.rel this hv').2 rfl⟩
  -- adjoint of the sum-reduction
  have hbG : HasBatch Ly fun w => (tenLens.get (G w)).1 := fun _ u hu =>
    hg.batch u (hu.elim (fun h' => Or.inr (Or.inl (hPx u h'))) fun h => Or.inr (Or.inr h))
  obtain ⟨o1, Z, q1, z1, z2, z3⟩ := reduceBack_run (S := G) (T := T) cy h.reduce (fun w hw' => hw w (hPx w hw')) hy hbG
    (buf := ownAt 0) (fun v hv => by
      have hv' := hPx v hv
      obtain ⟨a1, a2⟩ := hyroot v hv'
      obtain ⟨b1, b2⟩ := hg.fits _ a1 v hv a2
      rw [(hT0 v (hw v hv')).1, infoOf_ten]
      show (S2 v).t.shape = (G (Ly.rroot v)).t.shape ∧ (S2 v).t.dtype = (G (Ly.rroot v)).t.dtype
      rw [hS2 v hv']
      exact ⟨b1.symm, b2.symm⟩)
  generalize hG1 : run ((reduceBack cy Ly tenLens (ownAt 0)).at T) G = G1 at q1
  -- gradient of the operator
  have q2 : ∀ w ∈ W, sync (fun u => opBackPhase Lx.Py.members 1 opG (T u) u) G1 w =
      if w ∈ Lx.Py.members then opG w (S1 w) (G1 w) else G1 w := by
    intro w hww
    show (if w ∈ Lx.Py.members then _ else _) = _
    rw [(hT0 w hww).2.1]
  have o2 : PhaseOK W (fun u => opBackPhase Lx.Py.members 1 opG (T u) u) G1 :=
    localPhase_ok fun w y => (opBackPhase Lx.Py.members 1 opG (T w) w y).work y
  generalize hG2 : sync (fun u => opBackPhase Lx.Py.members 1 opG (T u) u) G1 = G2 at q2
  have hG1t : ∀ v ∈ Lx.Py.members, (G1 v).t = (G (Ly.rroot v)).t ∧ (G1 v).par = (G v).par := by
    intro v hv
    rw [q1 v (hw v hv)]
    refine ⟨?_, rfl⟩
    show (Z v).1 = _
    rw [z1 v (h.joint.symm ▸ hv)]
    rfl
  have hG2t : ∀ v ∈ Lx.Py.members, (G2 v).t = opB v (S (Lx.broot v)).t (G (Ly.rroot v)).t := by
    intro v hv
    obtain ⟨a1, a2, -⟩ := ht1 v hv
    rw [q2 v (hw v hv), if_pos hv, (hopG v hv _ _ a2).1, a1, (hG1t v hv).1]
  -- adjoint of the broadcast
  have hbG2 : HasBatch Lx fun w => (tenLens.get (G2 w)).1 := by
    intro _ u hu
    show (G2 u).t.shape ≠ []
    by_cases hv : u ∈ Lx.Py.members
    · rw [hG2t u hv, (hg.back u _ _).1]
      exact h.batch _ (Or.inl (hroot u hv))
    · have hux := hu.resolve_right hv
      rw [q2 u (hx u hux), if_neg hv, q1 u (hx u hux)]
      show (Z u).1.shape ≠ []
      by_cases huy : u ∈ Ly.Py.members
      · exact shape_ne_nil_of_prod (z2 u huy fun h' => hv (hPx u h'))
      · rw [z3 u (fun h' => hv (hPx u h')) huy]
        exact hg.batch u (Or.inl hux)
  obtain ⟨o3, V, q3, v1, v2, v3⟩ := bcastBack_run (S := G2) (T := T) (ℓ := tenLens) c h.bcast hx hw hbG2 (lf := strAt 1) (rt := ownAt 2)
    (fun v hv => by
      rw [(hT0 _ (hx _ (hroot v hv))).2.2.2, infoOf_ten]
      show (G2 v).t.shape = _ ∧ (G2 v).t.dtype = _
      rw [hG2t v hv]
      exact hg.back v _ _)
    (fun hid r hr hry e => by
      have hrW := hx r hr
      rw [(hT0 r hrW).2.2.1, (hT0 r hrW).2.2.2, (ht1 r hry).2.2 hid, e]
      exact ⟨rfl, rfl⟩)
  have hrun : run ((stackBackProg c cy Lx Ly opG).at T) G = run ((bcastBack c Lx tenLens (strAt 1) (ownAt 2)).at T) G2 := by
    unfold stackBackProg
    rw [CProg.at_append, run_append, hG1]
    show run ((bcastBack c Lx tenLens (strAt 1) (ownAt 2)).at T) (sync (fun u => opBackPhase Lx.Py.members 1 opG (T u) u) G1) = _
    rw [hG2]
  have hfin : ∀ w ∈ W, (run ((stackBackProg c cy Lx Ly opG).at T) G w).t = (V w).1 ∧
      (run ((stackBackProg c cy Lx Ly opG).at T) G w).par = (G2 w).par ∧
      (run ((stackBackProg c cy Lx Ly opG).at T) G w).err = (G w).err := by
    intro w hww
    rw [hrun, q3 w hww]
    refine ⟨rfl, rfl, ?_⟩
    show (G2 w).err = _
    rw [q2 w hww]
    split
    · next hv =>
      rw [(hopG w hv _ _ (ht1 w hv).2.1).2, q1 w hww]
      rfl
    · rw [q1 w hww]
      rfl
  refine ⟨?_, fun w hww => (hfin w hww).2.2, fun r hr => ?_, fun w hww hact hn => ?_, fun w hww n1 n2 n3 => ?_,
    fun w hv => ⟨S1 w, G1 w, (ht1 w hv).1, (ht1 w hv).2.1, (hG1t w hv).1, (hG1t w hv).2, ?_⟩, fun w hww hn => ?_⟩
  · unfold stackBackProg
    rw [CProg.at_append, progOK_append, hG1]
    exact ⟨o1, o2, by
      show ProgOK W ((bcastBack c Lx tenLens (strAt 1) (ownAt 2)).at T) (sync (fun u => opBackPhase Lx.Py.members 1 opG (T u) u) G1)
      rw [hG2]; exact o3⟩
  · rw [(hfin r (hx r hr)).1, v1 r hr, (hT0 r (hx r hr)).2.2.2]
    show Tensor.mk _ _ _ = Tensor.mk _ _ _
    congr 1
    funext i
    rw [List.filter_congr (q := fun v => decide (Lx.broot v = r)) fun v hv => decide_eq_decide.2 (h.bcast.rel hr hv)]
    congr 1
    refine List.map_congr_left fun v hv => ?_
    have e : Lx.broot v = r := of_decide_eq_true (List.mem_filter.1 hv).2
    show (G2 v).t.val i = _
    rw [hG2t v (List.mem_of_mem_filter hv), e]
  · rw [(hfin w hww).1]
    by_cases hv : w ∈ Lx.Py.members
    · exact v2 w hv hn
    · rw [v3 w hn hv]
      show (G2 w).t.shape.prod = 0
      rw [q2 w hww, if_neg hv, q1 w hww]
      exact z2 w (hact.resolve_right hv) fun h' => hv (hPx w h')
  · rw [(hfin w hww).1, v3 w n1 n2]
    show (G2 w).t = _
    rw [q2 w hww, if_neg n2, q1 w hww]
    show (Z w).1 = _
    rw [z3 w (fun h' => n2 (hPx w h')) n3]
    rfl
  · rw [(hfin w (hw w hv)).2.1, q2 w (hw w hv), if_pos hv]
  · rw [(hfin w hww).2.1, q2 w hww, if_neg hn, q1 w hww]
    rfl

end Verif.Net
