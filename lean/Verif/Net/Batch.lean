import Verif.Net.Loop

/-!
# Networks: inputs of different batch sizes

If no partition cuts the batch dimension, and the tensors without entries of the workers without data have the batch size,
then all workers that take part in the setup of a module see a change of the batch size, and all do the setup again.
-/

namespace Verif.Net

variable {F β : Type}

/-! ## What modules keep in calls with different batch sizes -/

/-- The batch size is `b` on all workers. -/
def Heads (W : List Nat) (b : Nat) (S : Nat → NSt F) : Prop := ∀ w ∈ W, (S w).t.shape.head? = some b

/-- What a module keeps: something that depends on the batch size on the workers `act`, or always the same. -/
inductive Entry
  | dyn (act : Nat → Bool)
  | sta (mem : Nat → Option Mem)

/-- A module without setup. -/
def Entry.off : Entry := .sta fun _ => none

/-- What is kept in a call with batch size `b`. -/
def Entry.Matches (b : Nat) : Entry → (Nat → Option Mem) → Prop
  | .dyn act, mem => (∀ u, (mem u).isSome = act u) ∧ ∀ u m, mem u = some m → m.key.1.head? = some b
  | .sta mem₀, mem => mem = mem₀

theorem Entry.Matches.decides {b b' : Nat} {e : Entry} {old new : Nat → Option Mem} (h : e.Matches b old) (h' : e.Matches b' new)
    (hb : b ≠ b') : Decides old new := by
  cases e with
  | sta mem₀ =>
    cases h
    cases h'
    exact ⟨fun _ h => h, .inr rfl⟩
  | dyn act =>
    refine ⟨fun u hu => ?_, .inl fun u m hm he => ?_⟩
    · have h1 := h.1 u
      rw [← h'.1 u, hu] at h1
      exact Option.not_isSome_iff_eq_none.1 (by rw [h1]; simp)
    · obtain ⟨m', e1, e2⟩ := Option.map_eq_some_iff.1 he
      have h1 := h.2 u m' e1
      rw [e2, h'.2 u m hm] at h1
      exact hb (Option.some.inj h1).symm

theorem memsOf_append (ms ms' : List (Mod F)) (S : Nat → NSt F) :
    memsOf (ms ++ ms') S = memsOf ms S ++ memsOf ms' (run (ms.map Mod.prog).flatten S) := by
  induction ms generalizing S with
  | nil => rfl
  | cons m ms ih =>
    rw [List.map_cons, List.flatten_cons, run_append, List.cons_append, memsOf, memsOf, ih]
    rfl

theorem plain_off (b : Nat) (p : Prog (NSt F) (NMsg F)) (S : Nat → NSt F) : Entry.off.Matches b (memOf (plainMod p) S) := rfl

theorem mem_dyn {W : List Nat} {b : Nat} {m : Mod F} {S : Nat → NSt F} (hk : ∀ x, (m.key x).1 = x.t.shape)
    (hW : ∀ u, m.act u = true → u ∈ W) (h : Heads W b S) : (Entry.dyn m.act).Matches b (memOf m S) := by
  refine ⟨fun u => ?_, fun u x hx => ?_⟩
  · unfold memOf
    cases m.act u <;> rfl
  · unfold memOf at hx
    split at hx
    · next ha =>
      obtain rfl := Option.some.inj hx
      show (m.key (S u)).1.head? = _
      rw [hk]
      exact h u (hW u ha)
    · cases hx

theorem setup_dyn {W U : List Nat} {b : Nat} {p : Prog (NSt F) (NMsg F)} {S : Nat → NSt F} (hU : ∀ u ∈ U, u ∈ W)
    (h : Heads W b S) : (Entry.dyn fun w => decide (w ∈ U)).Matches b (memOf (setupMod U p) S) :=
  mem_dyn (m := setupMod U p) (fun _ => rfl) (fun u hu => hU u (of_decide_eq_true hu)) h

/-! ## Parameter broadcasts -/

/-- What a broadcast of the tensors `K` keeps. -/
def statMem (L : PairLayer) (K : Nat → Tensor F × Bool) (w : Nat) : Option Mem :=
  if L.active w then some ⟨((K w).1.shape, (K w).1.dtype, (K w).2), fun _ => noInfo,
    if receives L.identity L.bparts w = .str then ((K (L.broot w)).1.shape, (K (L.broot w)).1.dtype, (K (L.broot w)).2) else noInfo,
    false⟩ else none

theorem active_mem {L : PairLayer} {w : Nat} : L.active w = true ↔ w ∈ L.Px.members ∨ w ∈ L.Py.members :=
  decide_eq_true_iff.trans mem_groupUnion

theorem bcast_mem [AddCommMonoid F] {W : List Nat} {L : PairLayer} {ℓ : Lens (NSt F) (Tensor F × Bool)} {S : Nat → NSt F} (c : Nat)
    (h : BcastLayer L) (hx : ∀ w ∈ L.Px.members, w ∈ W) (hy : ∀ w ∈ L.Py.members, w ∈ W) {K : Nat → Tensor F × Bool}
    (hK : ∀ w, L.active w = true → ℓ.get (S w) = K w) (calm : ∀ w ∈ W, (S w).err = false) :
    memOf (bcastMod c L ℓ) S = statMem L K := by
  funext w
  unfold memOf statMem
  show (if L.active w = true then _ else _) = _
  split
  · next ha =>
    have hw : w ∈ W := (active_mem.1 ha).elim (hx w) (hy w)
    have hi : infoOf ℓ (S w) = ((K w).1.shape, (K w).1.dtype, (K w).2) := by unfold infoOf; rw [hK w ha]
    show some (keepOf (receives L.identity L.bparts w) (infoOf ℓ (S w)) (run ((bcastProg c L ℓ).take 2) S w)) = _
    have key : (run ((bcastProg c L ℓ).take 2) S w).err = false ∧ receives L.identity L.bparts w ≠ .info ∧
        (receives L.identity L.bparts w = .str → (run ((bcastProg c L ℓ).take 2) S w).str =
          ((K (L.broot w)).1.shape, (K (L.broot w)).1.dtype, (K (L.broot w)).2)) := by
      unfold bcastProg receives
      cases hid : L.identity with
      | true => exact ⟨calm w hw, by simp, by simp⟩
      | false =>
        rw [if_neg (by simp), if_neg (by simp)]
        have st : Star L.Px.members L.Py.members L.broot (grp (groupUnion L.Px.members L.Py.members)
            (colS L.Px L.Py L.ts L.td) (colD L.Px L.Py L.ts L.td)) (fun w => sendOf (L.bparts w))
            fun w => recvOf (L.bparts w) := bcast_star h.valid
        obtain ⟨o1, r1⟩ := create_run (F := F) (c := c) (S := S) hx hy
        obtain ⟨o2, r2⟩ := struct_copy (c := c) (ℓ := ℓ) (S := sync (createPhase c L) S) st hx hy
        have hrun : run ([createPhase c L, structPhase c (fun w => sendOf (L.bparts w)) (fun w => recvOf (L.bparts w)) ℓ,
            copyPhase c (fun w => sendOf (L.bparts w)) (fun w => recvOf (L.bparts w)) L.preserveBatch ℓ fun _ x => x.str].take 2) S w =
            if w ∈ L.Py.members then { S w with str := infoOf ℓ (S (L.broot w)) } else S w := by
          refine (r2 w hw).trans ?_
          rw [r1 w hw]
          split
          · next hm => rw [r1 _ (hx _ (h.root_mem hm))]
          · rfl
        rw [hrun]
        refine ⟨?_, by split <;> simp, fun hr => ?_⟩
        · split <;> exact calm w hw
        · have hm : w ∈ L.Py.members := by
            by_contra hn
            have : recvOf (L.bparts w) = none := by
              have := st.bEq w
              rwa [if_neg hn] at this
            rw [this] at hr
            simp at hr
          rw [if_pos hm]
          show infoOf ℓ (S (L.broot w)) = _
          unfold infoOf
          rw [hK _ (active_mem.2 (.inl (h.root_mem hm)))]
    obtain ⟨k1, k2, k3⟩ := key
    unfold keepOf
    rw [if_neg k2, k1, hi]
    congr 2
    split
    · next hr => exact k3 hr
    · rfl
  · rfl

/-! ## Broadcast, local operator, sum-reduction -/

section
variable [AddCommMonoid F] {W : List Nat} {Lx Ly : PairLayer} {op : Nat → Tensor F → Option (Tensor F)} {S : Nat → NSt F}
  {O : Nat → Tensor F} {ρ : Bool} {b : Nat}

/-- The modules of such a layer. -/
def stackProfile (Lx Ly : PairLayer) : List Entry := [.dyn Lx.active, .off, .dyn Ly.active]

theorem stack_heads (c cy : Nat) (rgp : Bool) (h : Stack Lx Ly (inputsOf S) op O)
    {opS : Nat → NSt F → Option (Tensor F × Bool)}
    (hop : ∀ w ∈ Lx.Py.members, ∀ x : NSt F, x.par = (S w).par → opS w x = (op w x.t).map fun y => (y, x.rg || rgp))
    (hρ : ∀ w ∈ Lx.Px.members, (S w).rg = ρ) (hx : ∀ w ∈ Lx.Px.members, w ∈ W) (hw : ∀ w ∈ Lx.Py.members, w ∈ W)
    (hy : ∀ w ∈ Ly.Py.members, w ∈ W) (px : Lx.preserveBatch = true) (py : Ly.preserveBatch = true)
    (hO : ∀ v ∈ Lx.Py.members, (O v).shape.head? = some b) (hH : Heads W b S) :
    List.Forall₂ (Entry.Matches b) (stackProfile Lx Ly) (memsOf (stackMods c cy Lx Ly opS) S) ∧
    Heads W b (run (stackProgS c cy Lx Ly opS) S) := by
  have hb1 : HasBatch Lx fun w => (tenLens.get (S w)).1 := fun _ u hu => h.batch u (hu.elim Or.inl fun h => Or.inr (Or.inl h))
  obtain ⟨o1, Y, s, r1, y1, y2, y3, -⟩ := bcast_run c h.bcast hx hw slot_ten hb1
  have hrunB : run (bcastMod c Lx tenLens).prog S = run (bcastProg c Lx tenLens) S := by rw [bcastMod_prog]
  generalize hS1 : run (bcastProg c Lx tenLens) S = S1 at r1 hrunB
  have hPx : ∀ w ∈ Ly.Px.members, w ∈ Lx.Py.members := fun w hw => h.joint ▸ hw
  have ht1 : ∀ w ∈ W, (S1 w).t = (Y w).1 ∧ (S1 w).rg = (Y w).2 := by
    intro w hw
    rw [r1 w hw]
    exact ⟨rfl, rfl⟩
  have H1 : Heads W b S1 := by
    intro w hww
    rw [(ht1 w hww).1]
    by_cases hv : w ∈ Lx.Py.members
    · rw [y1 w hv]
      exact hH _ (hx _ (h.bcast.root_mem hv))
    · by_cases hu : w ∈ Lx.Px.members
      · rw [(y2 w hu hv).head px]
        exact hH w hww
      · rw [y3 w hu hv]
        exact hH w hww
  have r2 : ∀ w ∈ W, sync (opPhaseS Lx.Py.members opS) S1 w =
      if w ∈ Lx.Py.members then tenLens.set (O w, ρ || rgp) (S1 w) else S1 w := by
    intro w hww
    show (if w ∈ Lx.Py.members then _ else _) = _
    split
    · next hv =>
      have hr := h.bcast.root_mem hv
      have e : op w (S1 w).t = some (O w) := by
        rw [(ht1 w hww).1, y1 w hv]
        exact h.out w hv _ hr ((h.bcast.rel hr hv).2 rfl)
      have e2 : (S1 w).rg = ρ := by
        rw [(ht1 w hww).2, y1 w hv]
        exact hρ _ hr
      rw [hop w hv (S1 w) (by rw [r1 w hww]; rfl), e]
      show tenLens.set (O w, (S1 w).rg || rgp) (S1 w) = _
      rw [e2]
    · rfl
  generalize hS2 : sync (opPhaseS Lx.Py.members opS) S1 = S2 at r2
  have H2 : Heads W b S2 := by
    intro w hww
    rw [r2 w hww]
    split
    · next hv => exact hO w hv
    · exact H1 w hww
  have hs2 : ∀ w ∈ Ly.Px.members, (S2 w).t = O w ∧ (S2 w).rg = (ρ || rgp) := by
    intro w hww
    rw [r2 w (hw w (hPx w hww)), if_pos (hPx w hww)]
    exact ⟨rfl, rfl⟩
  have hb2 : HasBatch Ly fun w => (tenLens.get (S2 w)).1 := by
    intro _ u hu
    show (S2 u).t.shape ≠ []
    have huW : u ∈ W := hu.elim (fun h => hw u (hPx u h)) (hy u)
    intro e
    have := H2 u huW
    rw [e] at this
    cases this
  have hsrc : ∀ v ∈ Ly.Px.members, Ly.src (Ly.rroot v) ∈ Ly.Px.members ∧ Ly.rroot (Ly.src (Ly.rroot v)) = Ly.rroot v :=
    fun v hv => src_spec h.reduce.valid (h.reduce.root_mem hv)
  have hkind : ∀ u ∈ Ly.Px.members, ∀ v ∈ Ly.Px.members, Ly.rroot u = Ly.rroot v →
      (O u).shape = (O v).shape ∧ (O u).dtype = (O v).dtype := fun u hu v hv e =>
    h.kinds _ (h.reduce.root_mem hv) u hu v hv ((h.reduce.rel (h.reduce.root_mem hv) hu).2 e)
      ((h.reduce.rel (h.reduce.root_mem hv) hv).2 rfl)
  obtain ⟨o3, Z, s', r3, z1, z2, z3⟩ := reduce_run cy h.reduce (fun w hw' => hw w (hPx w hw')) hy slot_ten hb2
    (i := fun r => ((O (Ly.src r)).shape, (O (Ly.src r)).dtype, ρ || rgp)) (fun v hv => by
      obtain ⟨a1, a2⟩ := hs2 v hv
      obtain ⟨b1, b2⟩ := hsrc v hv
      obtain ⟨c1, c2⟩ := hkind v hv _ b1 b2.symm
      rw [infoOf_ten, NSt.own, a1, a2, c1, c2])
  constructor
  · refine .cons ?_ (.cons ?_ (.cons ?_ .nil))
    · exact mem_dyn (W := W) (m := bcastMod c Lx tenLens) (fun _ => rfl) (fun u hu => (active_mem.1 hu).elim (hx u) (hw u)) hH
    · exact plain_off b _ _
    · have e : run (plainMod [opPhaseS Lx.Py.members opS]).prog (run (bcastMod c Lx tenLens).prog S) = S2 := by
        rw [hrunB, ← hS2]
        rfl
      rw [e]
      exact mem_dyn (W := W) (m := reduceMod cy Ly tenLens) (fun _ => rfl)
        (fun u hu => (active_mem.1 hu).elim (fun h' => hw u (hPx u h')) (hy u)) H2
  · intro w hww
    have hrun : run (stackProgS c cy Lx Ly opS) S w = run (reduceProg cy Ly tenLens) S2 w := by
      rw [stackProgS, run_append, hS1]
      show run _ (sync (opPhaseS Lx.Py.members opS) S1) w = _
      rw [hS2]
    rw [hrun, r3 w hww]
    show (Z w).1.shape.head? = _
    by_cases hv : w ∈ Ly.Py.members
    · rw [z1 w hv]
      show (O (Ly.src w)).shape.head? = _
      exact hO _ (hPx _ (src_spec h.reduce.valid hv).1)
    · by_cases hu : w ∈ Ly.Px.members
      · rw [(z2 w hu hv).head py]
        exact H2 w hww
      · rw [z3 w hu hv]
        exact H2 w hww

end

/-! ## Workers without data -/

theorem local_idle {act : Nat → Bool} {f : Nat → NSt F → NSt F} (h : ∀ w, act w = false → f w = id) :
    IdlePh act (localPhase (μ := NMsg F) f) := by
  intro w hw x
  show (⟨[], f w, none⟩ : Phase (NSt F) (NMsg F)) = _
  rw [h w hw]

theorem local_idle_if {U : List Nat} {f : Nat → NSt F → NSt F} :
    IdlePh (fun w => decide (w ∈ U)) (localPhase (μ := NMsg F) fun w x => if w ∈ U then f w x else x) :=
  local_idle fun w hw => by
    funext x
    rw [if_neg (of_decide_eq_false hw)]
    rfl

theorem exchange_idle (c : Nat) (P : Cart) (Q : WinParams) (v : F) (B : Bufs β) :
    ∀ ph ∈ exchangeProg c P Q v B, IdlePh (fun w => decide (w ∈ P.members)) ph := by
  intro ph hp
  rcases List.mem_cons.1 hp with rfl | hp
  · exact local_idle_if
  · obtain ⟨k, -, rfl⟩ := List.mem_map.1 hp
    intro w hw x
    show liftPhase _ _ _ _ _ _ _ _ _ = _
    unfold liftPhase
    rw [if_neg (of_decide_eq_false hw)]


theorem setup_idle (c : Nat) (P : Cart) : ∀ ph ∈ (setupProg c P : Prog (NSt F) (NMsg F)), IdlePh (fun w => decide (w ∈ P.members)) ph :=
  (setupM_tidy c P).idle

/-! ## Shapes -/

theorem shapeAt_head {L : Layout} {idx s : List Nat} {b : Nat} (h1 : L.pshape.head? = some 1) (hb : InBounds idx L.pshape)
    (hs : L.global = s) (hg : s.head? = some b) : (L.shapeAt idx).head? = some b := by
  subst hs
  match L, idx, h1, hb with
  | bs :: L, i :: is, h1, hb =>
    have hl : bs.length = 1 := Option.some.inj h1
    match bs, hl with
    | [n], _ =>
      have hi : i < 1 := hb.1
      obtain rfl : i = 0 := by omega
      have : ([n].sum) = b := Option.some.inj hg
      show some ([n].getD 0 0) = _
      simpa using this
  | [], _, h1, _ => cases h1

theorem pool_head {Q : WinParams} {s : List Nat} {b : Nat} (h : 2 ≤ s.length) :
    (torchPoolShape Q s).head? = some b ↔ s.head? = some b := by
  match s, h with
  | _ :: _ :: _, _ => exact Iff.rfl

theorem conv_head {Q : WinParams} {co : Nat} {s : List Nat} {b : Nat} (h : 2 ≤ s.length) :
    (torchConvShape Q co s).head? = some b ↔ s.head? = some b := by
  match s, h with
  | _ :: _ :: _, _ => exact Iff.rfl

section
variable {W : List Nat} {P : Cart} {L : Layout} {s : List Nat} {t : TorchDtype} {X : List Nat → F} {S : Nat → NSt F} {b : Nat}

theorem Holds.heads (h : Holds W P L t X S) (hp : Placed W P L s) (h1 : P.shape.head? = some 1) (hs : s.head? = some b) :
    ∀ v ∈ P.members, (S v).t.shape.head? = some b := by
  intro v hv
  obtain ⟨rg, hrg⟩ := h.parts
  have e : (S v).t.shape = L.shapeAt (P.coord v) := congrArg Prod.fst (hrg v hv)
  rw [e]
  have hb : InBounds (P.coord v) L.pshape := by rw [hp.layout]; exact coords_inBounds hp.wf hv
  exact shapeAt_head (by rw [hp.layout]; exact h1) hb hp.global hs

end

/-! ## Layers -/

section
variable [Field F]

/-- What the broadcast of a parameter of `nn/conv_feature.py` starts from. -/
def rootK (P : Cart) (a : Tensor F) (rg : Bool) (w : Nat) : Tensor F × Bool :=
  ((rootParam P a rg).x w, if w = P.members.getD 0 0 then rg else false)

/-- What the broadcast of a parameter of `nn/conv_general.py` starts from. -/
def storedK (P : Cart) (a : Nat → Tensor F) (rg : Bool) (w : Nat) : Tensor F × Bool := ((storedParam P a rg).x w, rg)

/-- The modules of `nn/conv_feature.py`. -/
def convProfile (P : Cart) (C : ConvLayer F) (rgw : Bool) : List Entry :=
  if P.members.length = 1 then [.off]
  else [.dyn fun w => decide (w ∈ P.members), .off, .sta (statMem (paramBcast P) (rootK P C.weight rgw))] ++
    ((match C.bias with
      | some b => [.off, .sta (statMem (paramBcast P) (rootK P b rgw))]
      | none => []) ++ [.off, .off])

/-- The modules of `nn/conv_channel.py`. -/
def chanProfile (C : ChanConv) : List Entry :=
  if C.Pw.members.length = 1 then [.off] else stackProfile (chanBroadcast C.Px C.Pw) (chanReduce C.Pw C.yCast)

/-- The modules of `nn/conv_general.py`. -/
def genProfile (C : ChanConv) (weight bias : Nat → Tensor F) (rgp : Bool) : List Entry :=
  if C.Pw.members.length = 1 then [.off]
  else
    match weightRoot C.Pw, biasPart C.Pw, biasRoot C.Pw with
    | some Pwr, some Pb, some Pbr =>
      [.dyn fun w => decide (w ∈ C.union), .off, .off, .off, .sta (statMem (paramLayer Pwr C.Pw) (storedK Pwr weight rgp))] ++
      ((if C.useBias then [.off, .sta (statMem (paramLayer Pbr Pb) (storedK Pbr bias rgp))] else []) ++
        stackProfile (chanBroadcast C.Px C.Pw) (chanReduce C.Pw C.yCast))
    | _, _, _ => []

/-- The modules of a layer. -/
def TLayer.profile (P : Cart) : TLayer F β → List Entry
  | .map _ _ => [.off]
  | .conv _ _ _ C rgw _ => convProfile P C rgw
  | .avg _ _ _ => [.dyn fun w => decide (w ∈ P.members), .off, .off]
  | .flat => [.off]
  | .rep _ Py _ _ => [.dyn fun w => decide (w ∈ groupUnion P.members Py.members), .off]
  | .lin _ _ A _ _ _ => stackProfile A.xBroadcast A.ySumReduce
  | .chan _ _ C _ _ _ _ _ => chanProfile C
  | .gen _ _ _ _ _ C weight bias rgp _ _ _ => genProfile C weight bias rgp

variable {W : List Nat} {P : Cart} {L L' : Layout} {s : List Nat} {t : TorchDtype} {X : List Nat → F} {S : Nat → NSt F} {b : Nat}

/-- Modules with profile `es` in a call with batch size `b`. -/
def Steady (W : List Nat) (b : Nat) (es : List Entry) (ms : List (Mod F)) (S : Nat → NSt F) : Prop :=
  List.Forall₂ (Entry.Matches b) es (memsOf ms S) ∧ Heads W b (run (ms.map Mod.prog).flatten S)

theorem conv_outside (c cw cb : Nat) (C : ConvLayer F) (rgw : Bool) (B : Bufs β) (hroot : ∃ ρ, P.root = some ρ)
    (hD : 0 < P.shape.length) (hp : Placed W P L s) (hS : Holds W P L t X S) (hH : Heads W b S) :
    List.Forall₂ (Entry.Matches b) (convProfile P C rgw) (memsOf (convMods c cw cb P C rgw B) S) ∧
    ∀ w ∈ W, w ∉ P.members → (run (convProg c cw cb P C rgw B) S w).t = (S w).t := by
  have hl := paramBcast_layer hp.wf hroot hD
  obtain ⟨w0, h0, hm0⟩ := hp.wf.head
  have hw0 : P.members.getD 0 0 = w0 := by
    rw [List.head?_eq_getElem?] at h0
    rw [List.getD_eq_getElem?_getD, h0]
    rfl
  have hmx : ∀ w ∈ (paramBcast P).Px.members, w ∈ P.members := fun w hw => by
    have : w = P.members.getD 0 0 := by simpa [paramBcast, rootCart] using hw
    rw [this, hw0]
    exact hm0
  have hact : ∀ w, (paramBcast P).active w = true → w ∈ P.members := fun w h => (active_mem.1 h).elim (hmx w) id
  have hload : ∀ (c i : Nat) (a : Tensor F) (T : Nat → NSt F), (∀ w ∈ W, (T w).err = false) →
      memOf (bcastMod c (paramBcast P) (parLens i)) (run (plainMod [loadPhase P i a rgw]).prog T) =
        statMem (paramBcast P) (rootK P a rgw) := by
    intro c i a T hT
    have r1 : ∀ w, run (plainMod [loadPhase P i a rgw]).prog T w = if w ∈ P.members then (parLens i).set (rootK P a rgw w) (T w)
      else T w := fun w => rfl
    refine bcast_mem (W := W) c hl (fun w hw => hp.sub w (hmx w hw)) hp.sub (fun w hw => ?_) fun w hw => ?_
    · rw [r1, if_pos (hact w hw), (parLens i).get_set]
    · rw [r1]
      split <;> exact hT w hw
  unfold convProfile convMods convProg
  by_cases h1 : P.members.length = 1
  · rw [if_pos h1, if_pos h1, if_pos h1]
    refine ⟨.cons rfl .nil, fun w _ hw => ?_⟩
    exact congrArg NSt.t (if_neg hw)
  · rw [if_neg h1, if_neg h1, if_neg h1]
    obtain ⟨o1, f1, i1⟩ := setup_run c hp.sub S
    obtain ⟨S1, hS1⟩ : ∃ S1, S1 = run (setupProg c P) S := ⟨_, rfl⟩
    rw [← hS1] at f1
    have calm1 : ∀ w ∈ W, (S1 w).err = false := fun w hw => (f1 w hw).2.2.1.trans (hS.calm w hw)
    obtain ⟨o2, f2, p2⟩ := param_run cw 0 C.weight rgw hp.wf hroot hD hp.sub S1
    obtain ⟨S2, hS2⟩ : ∃ S2, S2 = run (paramProg cw P 0 C.weight rgw) S1 := ⟨_, rfl⟩
    rw [← hS2] at f2
    have calm2 : ∀ w ∈ W, (S2 w).err = false := fun w hw => (f2 w hw).2.2.1.trans (calm1 w hw)
    have e1 : run (setupMod P.members (setupProg c P)).prog S = S1 := by rw [setupMod_prog, hS1]
    have e2 : run (bcastMod cw (paramBcast P) (parLens 0)).prog (run (plainMod [loadPhase P 0 C.weight rgw]).prog S1) = S2 := by
      rw [bcastMod_prog, hS2]
      rfl
    have idle3 : ∀ ph ∈ exchangeProg c P C.W 0 B ++ [winOpPhase P C.W 0 (convOp C)], IdlePh (fun w => decide (w ∈ P.members)) ph := by
      intro ph hph
      rcases List.mem_append.1 hph with h | h
      · exact exchange_idle c P C.W 0 B ph h
      · rw [List.mem_singleton.1 h]
        exact local_idle_if
    constructor
    · rw [memsOf_append]
      refine List.rel_append (R := Entry.Matches b) ?_ ?_
      · refine .cons ?_ (.cons ?_ (.cons ?_ .nil))
        · exact setup_dyn (W := W) hp.sub hH
        · exact plain_off b _ _
        · rw [e1]
          exact hload cw 0 C.weight S1 calm1
      · have e3 : run (([setupMod P.members (setupProg c P), plainMod [loadPhase P 0 C.weight rgw],
            bcastMod cw (paramBcast P) (parLens 0)] : List (Mod F)).map Mod.prog).flatten S = S2 := by
          simp only [List.map_cons, List.map_nil, List.flatten_cons, List.flatten_nil, List.append_nil, run_append]
          rw [e1, e2]
        rw [e3, memsOf_append]
        refine List.rel_append (R := Entry.Matches b) ?_ (.cons (plain_off b _ _) (.cons (plain_off b _ _) .nil))
        cases C.bias with
        | none => exact .nil
        | some a => exact .cons (plain_off b _ _) (.cons (hload cb 1 a S2 calm2) .nil)
    · intro w hw hn
      have hn' : decide (w ∈ P.members) = false := decide_eq_false hn
      have hb : ∀ T : Nat → NSt F, (run (match C.bias with
          | some b => paramProg cb P 1 b rgw
          | none => []) T w).t = (T w).t := by
        intro T
        cases C.bias with
        | none => rfl
        | some a => exact ((param_run cb 1 a rgw hp.wf hroot hD hp.sub T).2.1 w hw).1
      rw [run_append, ← hS1, run_append, ← hS2, run_append, idle_run idle3 hn']
      refine (hb S2).trans ?_
      rw [(f2 w hw).1, (f1 w hw).1]

theorem avg_outside (c : Nat) (Q : WinParams) (B : Bufs β) (hp : Placed W P L s) (hH : Heads W b S) :
    List.Forall₂ (Entry.Matches b) [.dyn fun w => decide (w ∈ P.members), .off, .off] (memsOf (avgMods c P Q B) S) ∧
    ∀ w ∈ W, w ∉ P.members → (run (avgProg c P Q B) S w).t = (S w).t := by
  refine ⟨.cons (setup_dyn (W := W) hp.sub hH) (.cons (plain_off b _ _) (.cons (plain_off b _ _) .nil)), fun w hw hn => ?_⟩
  have hn' : decide (w ∈ P.members) = false := decide_eq_false hn
  rw [idle_run (act := fun w => decide (w ∈ P.members)) ?_ hn']
  intro ph hph
  rw [← avgCuts_flatten] at hph
  simp only [avgCuts, List.flatten_cons, List.flatten_nil, List.append_nil, List.mem_append, List.mem_singleton] at hph
  rcases hph with h | h | h
  · exact setup_idle c P ph h
  · exact exchange_idle c P Q 0 B ph h
  · rw [h]
    exact local_idle_if

theorem stackCuts_flatten (c cy : Nat) (Lx Ly : PairLayer) (op : Nat → NSt F → Option (Tensor F × Bool)) :
    (stackCuts c cy Lx Ly op).flatten = stackProgS c cy Lx Ly op := by
  simp [stackCuts, stackProgS]

theorem gen_heads (c cw cb cx cy : Nat) (C : ChanConv) {Po Pi : Nat} {Sp : List Nat} {B : Nat} {N : List Nat} {nd : Nat}
    {pk ps pp pd : List Nat} {weight bias : Nat → Tensor F} {Wt bi : List Nat → F} (rgp : Bool) (Bf : Bufs β)
    (hW : winParams nd pk ps pp pd = some C.W) (h : ChanValid C Po Pi Sp) (hSp : Sp.length = nd) (hg : C.groups = 1)
    (hp : Placed W C.Px L s) (hG : L.global = B :: C.Ci :: N) (h1w : C.Pw.members.length ≠ 1)
    (hl : WinLimits C.Px C.W L) (hpar : StoredParams C Po Pi weight bias Wt bi)
    (hw : ∀ w ∈ C.Pw.members, w ∈ W) (hy : ∀ w ∈ C.Py.members, w ∈ W)
    (hS : Holds W C.Px L t X S) (hB : B = b) (hH : Heads W b S) :
    Steady W b (genProfile C weight bias rgp) (genMods c cw cb cx cy C weight bias rgp Bf) S := by
  obtain ⟨Pwr, Pb, Pbr, wt, bb, rg, S1, S2, S3, S4, M⟩ := gen_mid c cw cb rgp Bf hW h hSp hg hp.layout hG h1w hl hpar hp.sub hw hy hS
  have hkn : C.W.k.length = nd := (winParams_length hW).1
  have hN : N.length = nd := by
    have : C.Px.shape.length = (B :: C.Ci :: N).length := by rw [← hG, Layout.length_global, ← Layout.length_pshape, hp.layout]
    rw [h.shx] at this
    simp at this
    omega
  have H2 : Heads W b S2 := by
    intro w hww
    by_cases hm : w ∈ C.Px.members
    · rw [← (M.keep4 w hww).1]
      have e1 : ((inputsOf S4).x w).shape.length = C.W.k.length + 2 := M.windows.rank w hm
      have e2 := M.windows.pool w hm
      refine (pool_head (Q := C.W.noPad) (by rw [show (S4 w).t.shape.length = C.W.k.length + 2 from e1]; omega)).1 ?_
      rw [show torchPoolShape C.W.noPad (S4 w).t.shape = _ from e2]
      have hlen : C.Px.shape.length = (torchPoolShape C.W (B :: C.Ci :: N)).length := by
        rw [h.shx]
        show _ = (torchOut C.W N).length + 2
        have : (torchConvShape C.W C.Co (B :: C.Ci :: N)).length = nd + 2 :=
          length_convShape C.W C.Co (by simp [hN])
        have e : (torchOut C.W N).length + 2 = nd + 2 := this
        rw [e]
        simp [hSp]
      refine shapeAt_head ?_ ?_ (Layout.balanced_global hlen h.wfx.pos) ?_
      · rw [Layout.balanced_pshape hlen, h.shx]
        rfl
      · rw [Layout.balanced_pshape hlen]
        exact coords_inBounds h.wfx hm
      · rw [← hB]
        rfl
    · rw [M.out2 w hww hm]
      exact hH w hww
  have H4 : Heads W b S4 := fun w hww => by
    rw [(M.keep4 w hww).1]
    exact H2 w hww
  have calm2 : ∀ w ∈ W, (S2 w).err = false := fun w hw => (M.err2 w hw).trans (hS.calm w hw)
  have calm3 : ∀ w ∈ W, (S3 w).err = false := fun w hw => (M.keep3 w hw).2.2.trans (calm2 w hw)
  have hload : ∀ (c i : Nat) (P Q : Cart) (a : Nat → Tensor F) (T : Nat → NSt F), BcastLayer (paramLayer P Q) →
      (∀ v ∈ P.members, v ∈ Q.members) → (∀ v ∈ Q.members, v ∈ W) → (∀ w ∈ W, (T w).err = false) →
      memOf (bcastMod c (paramLayer P Q) (parLens i)) (run (plainMod [storedLoad P Q i a rgp]).prog T) =
        statMem (paramLayer P Q) (storedK P a rgp) := by
    intro c i P Q a T hl hPQ hQ hT
    have r1 : ∀ w, run (plainMod [storedLoad P Q i a rgp]).prog T w = if w ∈ Q.members then (parLens i).set (storedK P a rgp w) (T w)
      else T w := fun w => rfl
    have hact : ∀ w, (paramLayer P Q).active w = true → w ∈ Q.members := fun w h => (active_mem.1 h).elim (hPQ w) id
    refine bcast_mem (W := W) c hl (fun w hw => hQ w (hPQ w hw)) hQ (fun w hw => ?_) fun w hw => ?_
    · rw [r1, if_pos (hact w hw), (parLens i).get_set]
    · rw [r1]
      split <;> exact hT w hw
  have hs : ∀ u, u ∈ C.Px.members ∨ u ∈ C.Pw.members ∨ u ∈ C.Py.members → ((inputsOf S4).x u).shape ≠ [] :=
    fun u hu => M.nonempty u (hu.elim (hp.sub u) fun hh => hh.elim (hw u) (hy u))
  have hst := chan_stack h (W' := C.W.noPad) ⟨rfl, rfl, rfl⟩ M.windows M.convs hs
  obtain ⟨k1, k2⟩ := stack_heads (b := b) (ρ := rg) cx cy rgp hst M.oper M.flags hp.sub hw hy rfl rfl (fun v hv => by
    have hr : (chanBroadcast C.Px C.Pw).broot v ∈ C.Px.members := hst.bcast.root_mem hv
    refine (conv_head (Q := C.W.noPad) ?_).2 (H4 _ (hp.sub _ hr))
    have : ((inputsOf S4).x ((chanBroadcast C.Px C.Pw).broot v)).shape.length = C.W.k.length + 2 := M.windows.rank _ hr
    rw [this]
    omega) H4
  have e1 : run (setupMod C.union (setupPartProg c C.Px C.union)).prog S = S1 := by rw [setupMod_prog, M.run1]
  have e2 : run (plainMod [winOpPhase C.Px C.W 0 neededOp]).prog (run (plainMod (exchangeProg c C.Px C.W 0 Bf)).prog S1) = S2 := by
    have := M.run2
    rw [run_append] at this
    exact this
  have e3 : run (bcastMod cw (paramLayer Pwr C.Pw) (parLens 0)).prog (run (plainMod [storedLoad Pwr C.Pw 0 weight rgp]).prog S2) = S3 := by
    rw [bcastMod_prog, ← M.run3]
    rfl
  have hm : genMods c cw cb cx cy C weight bias rgp Bf =
      [setupMod C.union (setupPartProg c C.Px C.union), plainMod (exchangeProg c C.Px C.W 0 Bf), plainMod [winOpPhase C.Px C.W 0 neededOp],
          plainMod [storedLoad Pwr C.Pw 0 weight rgp], bcastMod cw (paramLayer Pwr C.Pw) (parLens 0)] ++
        ((if C.useBias then [plainMod [storedLoad Pbr Pb 1 bias rgp], bcastMod cb (paramLayer Pbr Pb) (parLens 1)] else []) ++
          stackMods cx cy (chanBroadcast C.Px C.Pw) (chanReduce C.Pw C.yCast) (genOp C Pb)) := by
    unfold genMods
    rw [h.cast false (by simp)]
    dsimp only
    rw [if_neg h1w, M.root, M.part, M.broot]
  have hpr : genProfile C weight bias rgp =
      [.dyn fun w => decide (w ∈ C.union), .off, .off, .off, .sta (statMem (paramLayer Pwr C.Pw) (storedK Pwr weight rgp))] ++
      ((if C.useBias then [.off, .sta (statMem (paramLayer Pbr Pb) (storedK Pbr bias rgp))] else []) ++
        stackProfile (chanBroadcast C.Px C.Pw) (chanReduce C.Pw C.yCast)) := by
    unfold genProfile
    rw [if_neg h1w, M.root, M.part, M.broot]
  have e4 : run (([setupMod C.union (setupPartProg c C.Px C.union), plainMod (exchangeProg c C.Px C.W 0 Bf),
      plainMod [winOpPhase C.Px C.W 0 neededOp], plainMod [storedLoad Pwr C.Pw 0 weight rgp],
      bcastMod cw (paramLayer Pwr C.Pw) (parLens 0)] : List (Mod F)).map Mod.prog).flatten S = S3 := by
    simp only [List.map_cons, List.map_nil, List.flatten_cons, List.flatten_nil, List.append_nil, run_append]
    rw [e1, e2, e3]
  have e5 : run (((if C.useBias then [plainMod [storedLoad Pbr Pb 1 bias rgp], bcastMod cb (paramLayer Pbr Pb) (parLens 1)] else [] :
      List (Mod F))).map Mod.prog).flatten S3 = S4 := by
    rw [← M.run4]
    split
    · simp only [List.map_cons, List.map_nil, List.flatten_cons, List.flatten_nil, List.append_nil, bcastMod_prog, plainMod_prog]
      rfl
    · rfl
  rw [hm, hpr]
  constructor
  · rw [memsOf_append, e4, memsOf_append, e5]
    refine List.rel_append (R := Entry.Matches b) ?_ (List.rel_append (R := Entry.Matches b) ?_ k1)
    · refine .cons ?_ (.cons (plain_off b _ _) (.cons (plain_off b _ _) (.cons (plain_off b _ _) (.cons ?_ .nil))))
      · exact setup_dyn (W := W) M.union hH
      · rw [e1, e2]
        exact hload cw 0 Pwr C.Pw weight S2 M.layerW M.subW hw calm2
    · split
      · exact .cons (plain_off b _ _) (.cons (hload cb 1 Pbr Pb bias S3 M.layerB M.subB (fun v hv => hw v (M.subP v hv)) calm3) .nil)
      · exact .nil
  · rw [List.map_append, List.flatten_append, run_append, e4, List.map_append, List.flatten_append, run_append, e5, stackMods_prog,
      stackCuts_flatten]
    exact k2

/-- A repartition does not cut the batch dimension and passes on the batch size to workers without data. -/
def TLayer.KeepsBatch : TLayer F β → Prop
  | .rep _ Py pb _ => pb = true ∧ Py.shape.head? = some 1
  | _ => True

variable {l : TLayer F β}

omit [Field F] in
theorem TFits.unsplit (h : TFits W P L l L') (h1 : P.shape.head? = some 1) (hk : l.KeepsBatch) :
    (l.out P).shape.head? = some 1 := by
  cases h with
  | map | conv | avg => exact h1
  | flat hs => 
    rw [hs] at h1
    show (P.shape.take 2).head? = _
    rw [hs]
    exact h1
  | rep => exact hk.2
  | lin c cy A rgp weight bias hv => show A.Py.shape.head? = _; rw [hv.shy]; rfl
  | chan c cy C weight bias rgp Wt bi hv => show C.Py.shape.head? = _; rw [hv.shy]; rfl
  | gen c cw cb cx cy C weight bias rgp Bf Wt bi hW hv => show C.Py.shape.head? = _; rw [hv.shy]; rfl

theorem TFits.steady (h : TFits W P L l L') (hp : Placed W P L s) (h1 : P.shape.head? = some 1) (hk : l.KeepsBatch)
    (hs : s.head? = some b) (hS : Holds W P L t X S) (hH : Heads W b S) :
    Steady W b (l.profile P) (l.mods P) S ∧ (l.seq (s, X)).1.head? = some b := by
  have hrun := (h.realises hp S hS).2
  have hpl := h.placed hp X
  have h1' := h.unsplit h1 hk
  have hlen : s.length = P.shape.length := by rw [← hp.global, L.length_global, ← L.length_pshape, hp.layout]
  have hseq : (l.seq (s, X)).1.head? = some b := by
    cases h with
    | map | rep => exact hs
    | conv c cw cb C rgw B hC hD => exact (conv_head (by omega)).2 hs
    | avg c Q B hQ hD => exact (pool_head (by omega)).2 hs
    | flat => 
      match s, hs with
      | a :: s', hs => exact hs
    | lin => 
      match s, hs with
      | a :: s', hs => exact hs
    | chan c cy C weight bias rgp Wt bi hv =>
      refine (conv_head ?_).2 hs
      rw [hlen, hv.shx]
      simp
    | gen c cw cb cx cy C weight bias rgp Bf Wt bi hW hv =>
      refine (conv_head ?_).2 hs
      rw [hlen, hv.shx]
      simp
  refine ⟨?_, hseq⟩
  have hin : ∀ w ∈ (l.out P).members, (run (l.cuts P).flatten S w).t.shape.head? = some b := hrun.heads hpl h1' hseq
  have out : (∀ w ∈ W, w ∉ (l.out P).members → (run (l.cuts P).flatten S w).t.shape.head? = (S w).t.shape.head?) →
      Heads W b (run ((l.mods P).map Mod.prog).flatten S) := by
    intro ho w hw
    rw [TLayer.mods_prog]
    by_cases hm : w ∈ (l.out P).members
    · exact hin w hm
    · rw [ho w hw hm]
      exact hH w hw
  obtain ⟨wf, lay, sub, glob⟩ := id hp
  cases h with
  | map f df => exact ⟨.cons (plain_off b _ _) .nil, out fun w _ _ => rfl⟩
  | conv c cw cb C rgw B hC hD hch hroot =>
    obtain ⟨k1, k2⟩ := conv_outside c cw cb C rgw B hroot (by omega) hp hS hH
    refine ⟨k1, out fun w hw hn => ?_⟩
    show (run (convCuts c cw cb P C rgw B).flatten S w).t.shape.head? = _
    rw [convCuts_flatten, k2 w hw hn]
  | avg c Q B =>
    obtain ⟨k1, k2⟩ := avg_outside c Q B hp hH
    refine ⟨k1, out fun w hw hn => ?_⟩
    show (run (avgCuts c P Q B).flatten S w).t.shape.head? = _
    rw [avgCuts_flatten, k2 w hw hn]
  | flat =>
    refine ⟨.cons (plain_off b _ _) .nil, out fun w _ hn => ?_⟩
    have : run [flatProg P].flatten S w = S w := if_neg hn
    exact congrArg (fun x : NSt F => x.t.shape.head?) this
  | rep c Py pb B hw dims pos ones hW =>
    refine ⟨.cons (setup_dyn (W := W) (fun u hu => (mem_groupUnion.1 hu).elim (sub u) (hW u)) hH) (.cons (plain_off b _ _) .nil),
      out fun w hww hn => ?_⟩
    show (run (repCuts c P Py pb B).flatten S w).t.shape.head? = _
    rw [repCuts_flatten]
    exact (rep_run_all c pb B ⟨wf, hw, lay, dims, pos, ones⟩ sub hW hS).2.2 hk.1 w hww hn
  | @lin Po Pi b' c cy A rgp weight bias hv hpar hw hy =>
    obtain ⟨rg, hrg⟩ := hS.parts
    have eg : (Layout.balanced [1, Pi] [b', A.inFeatures]).global = [b', A.inFeatures] :=
      Layout.balanced_global rfl fun n hn => wf.pos n (hv.shx ▸ hn)
    have hb : b' = b := by
      rw [← glob, eg] at hs
      exact Option.some.inj hs
    have hbl := hS.blocks hv
    have hst := linear_stack hv hbl fun u hu => hS.batch u (hu.elim (sub u) fun hh => hh.elim (hw u) (hy u))
    obtain ⟨k1, k2⟩ := stack_heads (b := b) (ρ := rg) c cy rgp hst
      (opS := fun w x => (A.sublinear w x.t).map fun y => (y, x.rg || rgp)) (fun _ _ _ _ => rfl)
      (fun w hw => congrArg (·.2.2) (hrg w hw)) sub hw hy rfl rfl (fun v hv => by rw [← hb]; rfl) hH
    refine ⟨k1, ?_⟩
    rw [TLayer.mods_prog]
    show Heads W b (run (stackCuts _ _ _ _ _).flatten S)
    rw [stackCuts_flatten]
    exact k2
  | @chan Po Pi Sp B N c cy C weight bias rgp Wt bi hv h1s hSp hN hg hfit hpar place hw hy =>
    have hmods : chanMods c cy C (fun w => (weight w).val) (fun w => (bias w).val) rgp =
        if C.Pw.members.length = 1 then [plainMod (serialConvProg C (fun w => (weight w).val) (fun w => (bias w).val) rgp)]
        else stackMods c cy (chanBroadcast C.Px C.Pw) (chanReduce C.Pw C.yCast)
          fun w x => (channelLocal C (fun w => (weight w).val) (fun w => (bias w).val) w x.t).map fun y => (y, x.rg || rgp) := by
      unfold chanMods
      rw [hv.cast true fun _ => h1s]
    by_cases h1w : C.Pw.members.length = 1
    · rw [if_pos h1w] at hmods
      refine ⟨?_, out fun w hww hn => ?_⟩
      · show List.Forall₂ _ (chanProfile C) (memsOf (chanMods c cy C _ _ rgp) S)
        rw [hmods, chanProfile, if_pos h1w]
        exact .cons (plain_off b _ _) .nil
      · rw [← TLayer.mods_prog]
        show (run ((chanMods c cy C _ _ rgp).map Mod.prog).flatten S w).t.shape.head? = _
        rw [hmods]
        have hn' : w ∉ C.Pw.members := by rw [← (place h1w).2]; exact hn
        exact congrArg (fun x : NSt F => x.t.shape.head?) (if_neg hn')
    · rw [if_neg h1w] at hmods
      obtain ⟨rg, hrg⟩ := hS.parts
      have hT := channel_windows hv h1s hSp hN hfit hS.even
      have hss : ∀ u, u ∈ C.Px.members ∨ u ∈ C.Pw.members ∨ u ∈ C.Py.members → ((inputsOf S).x u).shape ≠ [] :=
        fun u hu => hS.batch u (hu.elim (sub u) fun hh => hh.elim (hw u) (hy u))
      have hst := chan_stack hv (W' := C.W) ⟨rfl, rfl, rfl⟩ hT
        (channel_local (wt := fun w => (weight w).val) (b := fun w => (bias w).val) hv hg) hss
      obtain ⟨k1, k2⟩ := stack_heads (b := b) (ρ := rg) c cy rgp hst
        (opS := fun w x => (channelLocal C (fun w => (weight w).val) (fun w => (bias w).val) w x.t).map fun y => (y, x.rg || rgp))
        (fun _ _ _ _ => rfl) (fun w hw => congrArg (·.2.2) (hrg w hw)) sub hw hy rfl rfl (fun v hvv => by
          have hr : (chanBroadcast C.Px C.Pw).broot v ∈ C.Px.members := hst.bcast.root_mem hvv
          refine (conv_head (Q := C.W) ?_).2 (hH _ (sub _ hr))
          have : ((inputsOf S).x ((chanBroadcast C.Px C.Pw).broot v)).shape.length = C.W.k.length + 2 := hT.rank _ hr
          rw [this]
          omega) hH
      constructor
      · show List.Forall₂ _ (chanProfile C) (memsOf (chanMods c cy C _ _ rgp) S)
        rw [hmods, chanProfile, if_neg h1w]
        exact k1
      · show Heads W b (run ((chanMods c cy C _ _ rgp).map Mod.prog).flatten S)
        rw [hmods, stackMods_prog, stackCuts_flatten]
        exact k2
  | @gen Po Pi Sp B N _ c cw cb cx cy C weight bias rgp Bf Wt bi nd _ _ _ _ hW hv hSp hg hG hfit hl hpar place hw hy =>
    by_cases h1w : C.Pw.members.length = 1
    · have hmods : genMods c cw cb cx cy C weight bias rgp Bf =
          [plainMod (serialConvProg C (fun w => (weight w).val) (fun w => (bias w).val) rgp)] := by
        unfold genMods
        rw [hv.cast false (by simp)]
        exact if_pos h1w
      refine ⟨?_, out fun w hww hn => ?_⟩
      · show List.Forall₂ _ (genProfile C weight bias rgp) (memsOf (genMods c cw cb cx cy C weight bias rgp Bf) S)
        rw [hmods, genProfile, if_pos h1w]
        exact .cons (plain_off b _ _) .nil
      · rw [← TLayer.mods_prog]
        show (run ((genMods c cw cb cx cy C weight bias rgp Bf).map Mod.prog).flatten S w).t.shape.head? = _
        rw [hmods]
        have hn' : w ∉ C.Pw.members := by rw [← (place h1w).2]; exact hn
        exact congrArg (fun x : NSt F => x.t.shape.head?) (if_neg hn')
    · refine gen_heads c cw cb cx cy C rgp Bf hW hv hSp hg hp hG h1w (hl h1w) hpar hw hy hS ?_ hH
      rw [← glob, hG] at hs
      exact Option.some.inj hs

/-! ## Networks -/

/-- The modules of a network. -/
def netProfile (P : Cart) : List (TLayer F β) → List Entry
  | [] => []
  | l :: ls => l.profile P ++ netProfile (l.out P) ls

theorem TNetFits.steady {P' : Cart} {ls : List (TLayer F β)} (h : TNetFits W P L ls P' L') : ∀ {s : List Nat} {X : List Nat → F}
    {S : Nat → NSt F}, Placed W P L s → P.shape.head? = some 1 → (∀ l ∈ ls, l.KeepsBatch) → s.head? = some b →
    Holds W P L t X S → Heads W b S → List.Forall₂ (Entry.Matches b) (netProfile P ls) (memsOf (netMods P ls) S) ∧
      Heads W b (run (netCuts P ls).flatten S) := by
  induction h with
  | nil => intro s X S _ _ _ _ _ hH; exact ⟨.nil, hH⟩
  | @cons P L L' P'' L'' l ls h hs ih =>
    intro s X S hp h1 hk hb hS hH
    obtain ⟨⟨k1, k2⟩, k3⟩ := h.steady hp h1 (hk l List.mem_cons_self) hb hS hH
    show List.Forall₂ _ (l.profile P ++ netProfile (l.out P) ls) (memsOf (l.mods P ++ netMods (l.out P) ls) S) ∧ _
    rw [memsOf_append]
    rw [TLayer.mods_prog] at k2 ⊢
    obtain ⟨i1, i2⟩ := ih (X := (l.seq (s, X)).2) (h.placed hp X) (h.unsplit h1 (hk l List.mem_cons_self))
      (fun l' h' => hk l' (List.mem_cons_of_mem _ h')) k3 (h.realises hp S hS).2 k2
    refine ⟨List.rel_append (R := Entry.Matches b) k1 i1, ?_⟩
    show Heads W b (run (l.cuts P ++ netCuts (l.out P) ls).flatten S)
    rw [List.flatten_append, run_append]
    exact i2

omit [Field F] in
theorem TLayer.keepsBatch_with (P : Cart) (θ : Nat → Nat → Tensor F) {l : TLayer F β} (h : l.KeepsBatch) :
    (l.withPar P θ).KeepsBatch := by
  cases l <;> exact h

theorem keepsBatch_net {ls : List (TLayer F β)} (T : Nat → Nat → Nat → Tensor F) (h : ∀ l ∈ ls, l.KeepsBatch) :
    ∀ (P : Cart) (i : Nat), ∀ l ∈ netWith P T i ls, l.KeepsBatch := by
  induction ls with
  | nil => exact fun _ _ l hl => by cases hl
  | cons l ls ih =>
    intro P i l' hl'
    rcases List.mem_cons.1 hl' with rfl | hl'
    · exact TLayer.keepsBatch_with P _ (h l List.mem_cons_self)
    · exact ih (fun l h' => h l (List.mem_cons_of_mem _ h')) _ _ l' hl'

/-! ## Deciding alike -/

/-- All structures are determined by the batch size. -/
theorem alike_batches {ls : List (TLayer F β)} {T₀ : Nat → Nat → Nat → Tensor F} {rg : Nat → Bool} {E : List Entry}
    {σ : Nat → Nat → Tensor F} {js : List (Job F)}
    (h : ∀ j ∈ js, ∃ b, (∀ w, (j.x w).bare = (σ b w).bare) ∧ List.Forall₂ (Entry.Matches b) E (keeps P ls T₀ (σ b) rg)) :
    Alike P ls T₀ rg (fun _ _ => none) js := by
  have key : ∀ (js : List (Job F)) M,
      (∀ j ∈ js, ∃ b, (∀ w, (j.x w).bare = (σ b w).bare) ∧ List.Forall₂ (Entry.Matches b) E (keeps P ls T₀ (σ b) rg)) →
      ((∀ k, M k = fun _ => none) ∨ ∃ b, List.Forall₂ (Entry.Matches b) E (keeps P ls T₀ (σ b) rg) ∧
        ∀ k mem, (keeps P ls T₀ (σ b) rg)[k]? = some mem → M k = mem) → Alike P ls T₀ rg M js := by
    intro js
    induction js with
    | nil => exact fun _ _ _ => trivial
    | cons j js ih =>
      intro M hj hM
      obtain ⟨b', hx, hE'⟩ := hj j List.mem_cons_self
      have e := keeps_like (P := P) (ls := ls) (T₀ := T₀) (rg := rg) hx
      refine ⟨fun k mem hk => ?_, ih _ (fun j' h' => hj j' (List.mem_cons_of_mem _ h')) (.inr ⟨b', hE', fun k mem hk => ?_⟩)⟩
      · rw [e] at hk
        rcases hM with hM | ⟨b, hE, hM⟩
        · rw [hM]; exact decides_first mem
        · by_cases hb : b = b'
          · subst hb
            rw [hM k mem hk]
            exact Decides.refl mem
          · obtain ⟨hlt, hm⟩ := List.getElem?_eq_some_iff.1 hk
            have hlE : k < E.length := hE'.length_eq ▸ hlt
            have hlt0 : k < (keeps P ls T₀ (σ b) rg).length := hE.length_eq ▸ hlE
            have m1 := hE.get hlE hlt0
            have m2 := hE'.get hlE hlt
            rw [hM k _ (List.getElem?_eq_getElem hlt0), ← hm]
            exact m1.decides m2 hb
      · rw [renew, e, hk, Option.getD_some]
  exact key js _ h (.inl fun _ => rfl)

end

end Verif.Net
