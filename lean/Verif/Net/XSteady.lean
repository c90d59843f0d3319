import Verif.Net.XStep

/-!
# Networks with interpolation and batch norm that are called again and again: what the modules keep

All inputs have one structure.  Then the modules find the same in every setup, whatever the parameters, the statistics and the
mode are.
-/

namespace Verif.Net

variable {F β : Type} [Field F] [LinearOrder F] [FloorRing F]

/-- Whatever the values of its parameters and of its input are, a layer called in any mode finds in its setups what `K` says, and
its output has the structure of `B'`.  `T₀` and `B` have the structures of the parameters and of the input. -/
def LayerSteady (W : List Nat) (t : TorchDtype) (P : Cart) (L : Layout) (l : XLayer F β) (T₀ : Nat → Nat → Tensor F)
    (B : Nat → NSt F) (K : Nat → Nat → Option Mem) (B' : Nat → NSt F) : Prop :=
  ∀ (tr : Bool) (g : XLayer F β) (θ : Nat → Nat → Tensor F) (seen : Nat → Nat) (S : Nat → NSt F) (X : List Nat → F),
    XKin l g → g.Stores P t θ seen → (∀ w p, p < 2 → (θ w p).bare = (T₀ w p).bare) → (∀ w, (S w).bare = (B w).bare) →
    Holds W P L t X S →
    Canon (g.inMode tr).slot K 0 (((g.inMode tr).withPar P θ).mods P) S ∧
    ∀ w, (NSt.scope (run (((g.inMode tr).withPar P θ).cuts P).flatten S w)).bare = (B' w).bare

omit [LinearOrder F] [FloorRing F] in
theorem scope_bare {x y : NSt F} (h : x.bare = y.bare) : x.scope.bare = y.scope.bare := by
  obtain ⟨h1, h2, h3, -⟩ := bare_eq.1 h
  exact bare_eq.2 ⟨h1, h2, h3, rfl, rfl, fun _ => ⟨rfl, rfl⟩⟩

omit [LinearOrder F] [FloorRing F] in
/-- Pieces that all belong to different modules. -/
theorem steady_of_like {ms ms' : List (Mod F)} (h : List.Forall₂ ModLike ms ms') {S B : Nat → NSt F}
    (hS : ∀ w, (S w).bare = (B w).bare) :
    Canon id (fun q => ((memsOf ms' B)[q]?).getD fun _ => none) 0 ms S ∧
    ∀ w, (NSt.scope (run (ms.map Mod.prog).flatten S w)).bare = (NSt.scope (run (ms'.map Mod.prog).flatten B w)).bare := by
  refine ⟨canon_mems ms 0 S _ fun j mem hj => ?_, fun w => scope_bare (run_like ?_ hS w)⟩
  · rw [Nat.zero_add, ← mems_like h hS, hj, Option.getD_some]
  · induction h with
    | nil => exact .nil
    | cons h1 _ ih =>
      rw [List.map_cons, List.map_cons, List.flatten_cons, List.flatten_cons]
      exact (h1.setup.append h1.rest).append ih

variable {W : List Nat} {t : TorchDtype} {P : Cart} {L L' : Layout} {l g : XLayer F β}
  {T₀ : Nat → Nat → Tensor F} {B : Nat → NSt F} {s : List Nat}

theorem XFits.normOK {c cs cb ca : Nat} {N : NormLayer F} {sq : SeqState F} {gamma beta : Nat → F}
    (h : XFits W t P L (.norm c cs cb ca N sq gamma beta : XLayer F β) L') : NormOK N L t sq gamma beta ∧ N.M.P = P ∧
      (N.M.affine = true ∨ N.M.track = true → L.getD 1 [] = channelBlocks N.M.P N.M.numFeatures) := by
  cases h with
  | norm _ _ _ _ h hb => exact ⟨h, rfl, hb⟩

theorem XFits.steady (h : XFits W t P L l L') (hp : Placed W P L s) (T₀ : Nat → Nat → Tensor F) (B : Nat → NSt F) :
    ∃ K B', LayerSteady W t P L l T₀ B K B' := by
  cases h with
  | @base P L l L' h =>
    refine ⟨fun q => ((memsOf ((l.withPar P T₀).mods P) B)[q]?).getD fun _ => none,
      fun w => NSt.scope (run (((l.withPar P T₀).mods P).map Mod.prog).flatten B w), fun tr g θ seen S X hk hs hθ hS hX => ?_⟩
    cases hk with
    | @base _ l' hk =>
      have e : (l.withPar P θ).mods P = (l.withPar P fun w p => if p < 2 then θ w p else T₀ w p).mods P := by
        rw [TLayer.withPar_low P l (θ := θ) (θ' := fun w p => if p < 2 then θ w p else T₀ w p) fun w p hp => (if_pos hp).symm]
      have := steady_of_like (TLayer.mods_like P l (θ := fun w p => if p < 2 then θ w p else T₀ w p) (θ' := T₀) fun w i => by
        split
        · next hi => exact hθ w i hi
        · rfl) hS
      rw [← e, ← (hk.parts P θ).1] at this
      refine ⟨this.1, fun w => ?_⟩
      have h2 := this.2 w
      rw [TLayer.mods_prog] at h2
      exact h2
  | @up P gx gy c size p B' hc ho hf hl =>
    refine ⟨fun q => ((memsOf ((XLayer.up c size p B' gy : XLayer F β).mods P) B)[q]?).getD fun _ => none,
      fun w => NSt.scope (run (((XLayer.up c size p B' gy : XLayer F β).mods P).map Mod.prog).flatten B w),
      fun tr g θ seen S X hk hs hθ hS hX => ?_⟩
    cases hk
    have := steady_of_like (S := S) (B := B) (ms := (XLayer.up c size p B' gy : XLayer F β).mods P)
      (ms' := (XLayer.up c size p B' gy : XLayer F β).mods P)
      (.cons (setupMod_like (setup_like c P)) (.cons (plain_like (upExchange_like c P _ _ B')) (.cons (plain_like1 (upOp_like P _ _)) .nil))) hS
    refine ⟨this.1, fun w => ?_⟩
    have h2 := this.2 w
    rw [XLayer.mods_prog] at h2 ⊢
    exact h2
  | @norm L c cs cb ca N sq gamma beta h hb =>
    refine ⟨normKeeps N.M L t (B (N.M.P.members.getD 0 0)).rg fun w => ((T₀ w 0).shape, (T₀ w 0).dtype, N.rgp),
      fun w => { feed (B w).t (if w ∈ N.M.P.members then (B w).rg || (N.M.affine && N.rgp) else (B w).rg) with err := (B w).err },
      fun tr g θ seen S X hk hs hθ hS hX => ?_⟩
    have hfit := (XFits.norm (W := W) (β := β) c cs cb ca h hb).kin (hk.trans (kin_inMode tr g)) (XLayer.stores_inMode tr hs)
    cases hk with
    | norm _ _ _ _ _ tr' _ _ _ sq' gamma' beta' =>
      have hok' := hfit.normOK.1
      obtain ⟨ρ, hρ⟩ := hX.parts
      have hrS : ∀ v ∈ N.M.P.members, (S v).rg = ρ := fun v hv => congrArg (·.2.2) (hρ v hv)
      have hrB : ∀ v, (B v).rg = (S v).rg := fun v => ((bare_eq.1 (hS v)).2.1).symm
      constructor
      · refine norm_canon (N := { N with training := tr, st := _, g := _, b := _ }) c cs cb ca hok' hp.layout hp.sub hX (fun v hv => ?_) fun ha v hv => ?_
        · rw [hrB, hrS v hv]
          refine (hrS _ ?_).symm
          cases hm : N.M.P.members with
          | nil => rw [hm] at hv; cases hv
          | cons a as => exact List.mem_cons_self
        · obtain ⟨e1, e2⟩ := tensor_bare.1 (hθ v 0 (by omega))
          obtain ⟨e3, e4⟩ := tensor_bare.1 ((hs.1 ha).2.2 v hv)
          dsimp only
          rw [← e3, ← e4, e1, e2]
          exact ⟨rfl, rfl⟩
      · intro w
        obtain ⟨-, hH, hrg, -⟩ := bnorm_run (N := { N with training := tr, st := _, g := _, b := _ }) c cs cb ca hok' hp.layout hp.sub hX
        obtain ⟨q1, q2, q3, -⟩ := bare_eq.1 (hS w)
        by_cases hw : w ∈ N.M.P.members
        · obtain ⟨ρ', hρ'⟩ := hH.parts
          obtain ⟨t1, t2⟩ := tensor_bare.1 q1
          refine bare_eq.2 ⟨tensor_bare.2 ⟨?_, ?_⟩, ?_, ?_, rfl, rfl, fun _ => ⟨rfl, rfl⟩⟩
          · exact (congrArg Prod.fst (hρ' w hw)).trans ((congrArg Prod.fst (hρ w hw)).symm.trans t1)
          · exact (congrArg (·.2.1) (hρ' w hw)).trans ((congrArg (·.2.1) (hρ w hw)).symm.trans t2)
          · refine (hrg w hw).trans ?_
            show _ = if w ∈ N.M.P.members then _ else _
            rw [if_pos hw, hrB]
          · exact (hH.calm w (hp.sub w hw)).trans ((hX.calm w (hp.sub w hw)).symm.trans q3)
        · have := norm_idle (N := { N with training := tr, st := fun w => ⟨θ w 2, θ w 3, (N.st w).seen⟩, g := fun w => θ w 0, b := fun w => θ w 1 })
            c cs cb ca (hok'.made.made hp.layout) hw S
          refine bare_eq.2 ⟨?_, ?_, ?_, rfl, rfl, fun _ => ⟨rfl, rfl⟩⟩
          · exact (congrArg (fun x : NSt F => x.t.bare) this).trans q1
          · refine ((congrArg (fun x : NSt F => x.rg) this).trans q2).trans ?_
            show _ = if w ∈ N.M.P.members then _ else _
            rw [if_neg hw]
          · exact (congrArg (fun x : NSt F => x.err) this).trans q3

/-! ## The call of a layer -/

omit [FloorRing F] in
theorem XKin.stats (h : XKin l g) (tr : Bool) (i : Nat) : (l.inMode tr).statsPhase i = (g.inMode tr).statsPhase i := by
  cases h <;> rfl

omit [FloorRing F] in
theorem stats_ok (i : Nat) (l : XLayer F β) (D : Nat → LSt F) : PhaseOK W (l.statsPhase i) D := by
  cases l <;> exact localPhase_ok _

omit [LinearOrder F] [FloorRing F] in
theorem scope_sync (C : Nat → LSt F) (u : Nat) : sync scopePhase C u = { C u with b := { (C u).b with s := (C u).b.s.scope } } := rfl

variable [IsStrictOrderedRing F] {X : List Nat → F}

omit [IsStrictOrderedRing F] in
/-- The update of the running statistics. -/
theorem stats_run {θ : Nat → Nat → Tensor F} (hfit : XFits W t P L (l.withPar P θ) L') (hp : Placed W P L s) (hm : l.Moves) {i : Nat} {D : Nat → LSt F} {seen : Nat → Nat}
    {S : Nat → NSt F} (hθ : ∀ u, (D u).θ i = θ u) (hn : ∀ u, (D u).seen i = seen u)
    (hs : l.Stores P t θ seen) (hX : Holds W P L t X S)
    (hD : ∀ u, (D u).b.s = run ((l.withPar P θ).cuts P).flatten S u) :
    ∃ (θ' : Nat → Nat → Tensor F) (n' : Nat → Nat), (∀ u, sync (l.statsPhase i) D u = { D u with
        θ := fun j p => if j = i then θ' u p else (D u).θ j p
        seen := fun j => if j = i then n' u else (D u).seen j }) ∧
      (∀ u p, p < 2 → θ' u p = θ u p) ∧ (l.note (s, X)).Stores P t θ' n' := by
  have same : ∀ u, D u = { D u with
      θ := fun j p => if j = i then θ u p else (D u).θ j p
      seen := fun j => if j = i then seen u else (D u).seen j } := by
    intro u
    have e1 : (fun j p => if j = i then θ u p else (D u).θ j p) = (D u).θ := by
      funext j p
      split
      · next e => rw [e, hθ]
      · rfl
    have e2 : (fun j => if j = i then seen u else (D u).seen j) = (D u).seen := by
      funext j
      split
      · next e => rw [e, hn]
      · rfl
    rw [e1, e2]
  cases l with
  | base l => exact ⟨θ, seen, same, fun _ _ _ => rfl, hs⟩
  | up => exact ⟨θ, seen, same, fun _ _ _ => rfl, hs⟩
  | norm c cs cb ca N sq gamma beta =>
    obtain ⟨hok, hP, hb⟩ := hfit.normOK
    have hP : N.M.P = P := hP
    subst hP
    by_cases hu : (N.training && N.M.track) = true
    · obtain ⟨h1, h2⟩ := Bool.and_eq_true_iff.1 hu
      have hL := hp.layout
      have hmade := hok.made.made hL
      have hglob := hp.global
      subst hglob
      obtain ⟨-, -, -, m, v, g, b, hv, hpar, -⟩ := bnorm_run (N := { N with st := fun w => ⟨θ w 2, θ w 3, (N.st w).seen⟩, g := fun w => θ w 0, b := fun w => θ w 1 })
        c cs cb ca hok hL hp.sub hX
      have key : ∀ u, ∃ st' : BNState F, u ∈ N.M.P.members →
          updateStats N.M.momentum ⟨θ u 2, θ u 3, seen u⟩ (m u) (v u) = some st' ∧
          (Held N.M.P (channelBlocks N.M.P N.M.numFeatures) (seqUpdate N.M.momentum sq (channelMean ⟨L.global, .float32, X⟩)
            (channelVar ⟨L.global, .float32, X⟩)).mean u st'.mean ∧
          Held N.M.P (channelBlocks N.M.P N.M.numFeatures) (seqUpdate N.M.momentum sq (channelMean ⟨L.global, .float32, X⟩)
            (channelVar ⟨L.global, .float32, X⟩)).var u st'.var) ∧
          (N.M.momentum = none → st'.seen = (seqUpdate N.M.momentum sq (channelMean ⟨L.global, .float32, X⟩)
            (channelVar ⟨L.global, .float32, X⟩)).seen) := by
        intro u
        by_cases hu' : u ∈ N.M.P.members
        · obtain ⟨hm1, hm2⟩ := hv.held hok hmade hX.normBlocks hu'
          have e : seqUsed N.M.track N.training sq ⟨L.global, t, X⟩ = (channelMean ⟨L.global, .float32, X⟩, channelVar ⟨L.global, .float32, X⟩) := by
            rw [seqUsed, h1, h2]
            rfl
          have hb' := hb (.inr h2)
          dsimp only at hm1 hm2
          rw [e, hb'] at hm1 hm2
          obtain ⟨st', q1, q2, q3⟩ := update_held (hm h2) hmade.two (st := ⟨θ u 2, θ u 3, seen u⟩) ((hs.2 h2).1 u hu')
            (fun e => (hs.2 h2).2 e u hu') hm1 hm2
          exact ⟨st', fun _ => ⟨q1, q2, q3⟩⟩
        · exact ⟨⟨θ u 2, θ u 3, seen u⟩, fun h => absurd h hu'⟩
      choose st' hst using key
      refine ⟨fun u p => if u ∈ N.M.P.members then if p = 2 then (st' u).mean else if p = 3 then (st' u).var else θ u p else θ u p,
        fun u => if u ∈ N.M.P.members then (st' u).seen else seen u, fun u => ?_, fun u p hp2 => ?_, ?_, fun _ => ⟨fun w hw => ?_, fun e w hw => ?_⟩⟩
      · show (if u ∈ N.M.P.members then if (N.training && N.M.track) = true then _ else _ else _) = _
        by_cases hu' : u ∈ N.M.P.members
        · have e1 : ((D u).b.s.par 2).1 = m u := by rw [hD u]; exact (hpar u hu').1
          have e2 : ((D u).b.s.par 3).1 = v u := by rw [hD u]; exact (hpar u hu').2
          simp only [if_pos hu', if_pos hu]
          rw [e1, e2, hθ u, hn u, (hst u hu').1]
          dsimp only
          congr 1
          funext j p
          split
          · next e => rw [e, hθ]
          · rfl
        · simp only [if_neg hu']
          exact same u
      · dsimp only
        rw [if_neg (by omega : p ≠ 2), if_neg (by omega : p ≠ 3), ite_self]
      · have e0 : ∀ w, (if w ∈ N.M.P.members then if (0 : Nat) = 2 then (st' w).mean else if (0 : Nat) = 3 then (st' w).var else θ w 0 else θ w 0) = θ w 0 :=
          fun w => ite_self _
        have e1 : ∀ w, (if w ∈ N.M.P.members then if (1 : Nat) = 2 then (st' w).mean else if (1 : Nat) = 3 then (st' w).var else θ w 1 else θ w 1) = θ w 1 :=
          fun w => ite_self _
        simp only [e0, e1]
        exact hs.1
      · simp only [if_pos hw, if_true, hu]
        exact (hst w hw).2.1
      · simp only [if_pos hw, hu, if_true]
        exact (hst w hw).2.2 e
    · refine ⟨θ, seen, fun u => ?_, fun _ _ _ => rfl, hs.1, ?_⟩
      · rw [← same u]
        show (if u ∈ N.M.P.members then if (N.training && N.M.track) = true then _ else _ else _) = _
        rw [if_neg hu, ite_self]
      · rw [if_neg hu]
        exact hs.2

/-- The call of a layer. -/
theorem callLayer_run (h : XFits W t P L l L') (ht : t = .float32 ∨ t = .float64) (hp : Placed W P L s) (hm : l.Moves) {K : Nat → Nat → Option Mem}
    {B' : Nat → NSt F} (hb : LayerSteady W t P L l T₀ B K B') (hk : XKin l g) (tr : Bool) {i : Nat} {C : Nat → LSt F}
    (hs : g.Stores P t (fun w => (C w).θ i) fun w => (C w).seen i)
    (hlow : ∀ w p, p < 2 → ((C w).θ i p).bare = (T₀ w p).bare) (hB : ∀ w, (C w).b.s.bare = (B w).bare)
    (hX : Holds W P L t X fun w => (C w).b.s) (hcold : ∀ u, (C u).cold = false)
    (hcache : ∀ q, OneOf (K q) fun u => (C u).cache (Nat.pair i q)) :
    ProgOK W (callLayer P i (l.inMode tr)) C ∧ ∃ (θ' : Nat → Nat → Tensor F) (n' : Nat → Nat) (cache : Nat → Nat → Option Mem),
      (∀ u, run (callLayer P i (l.inMode tr)) C u = { C u with
        b := ⟨NSt.scope (run (((g.inMode tr).withPar P fun w => (C w).θ i).cuts P).flatten (fun w => (C w).b.s) u),
          snaps (((g.inMode tr).withPar P fun w => (C w).θ i).cuts P) (fun w => (C w).b.s) u ++ (C u).b.tape, (C u).b.grads⟩
        θ := fun j p => if j = i then θ' u p else (C u).θ j p
        seen := fun j => if j = i then n' u else (C u).seen j
        cache := cache u }) ∧
      (∀ u p, p < 2 → θ' u p = (C u).θ i p) ∧ ((g.inMode tr).note (s, X)).Stores P t θ' n' ∧
      (∀ q, OneOf (K q) fun u => cache u (Nat.pair i q)) ∧
      (∀ u q, (∀ r, q ≠ Nat.pair i r) → cache u q = (C u).cache q) ∧
      Holds W (l.out P) L' t ((g.inMode tr).seq (s, X)).2
        (run (((g.inMode tr).withPar P fun w => (C w).θ i).cuts P).flatten fun w => (C w).b.s) ∧
      ∀ w, (NSt.scope (run (((g.inMode tr).withPar P fun w => (C w).θ i).cuts P).flatten (fun w => (C w).b.s) w)).bare = (B' w).bare := by
  have hs' := XLayer.stores_inMode tr hs
  have hk' := hk.trans (kin_inMode tr g)
  have hfit := h.kin hk' hs'
  obtain ⟨c1, c2⟩ := hb tr g _ _ _ X hk hs hlow hB hX
  obtain ⟨p1, p2, -, -, p3⟩ := hk.parts tr P fun w => (C w).θ i
  obtain ⟨ok, hH⟩ := hfit.realises ht hp _ hX
  rw [XLayer.out_withPar, XLayer.out_inMode, hk.out P, hs'.seq_adj.1] at hH
  have em : (((l.inMode tr).withPar P fun w => (C w).θ i).mods P).map Mod.prog = ((g.inMode tr).withPar P fun w => (C w).θ i).cuts P := by
    rw [← p1, XLayer.mods_prog]
  obtain ⟨a1, cache, a2, a3, a4⟩ := callSlots_run (W := W) (i := i) (σ := (l.inMode tr).slot) (K := K) ((l.inMode tr).resolves P (XLayer.OneType.of hk hs tr))
    (XLayer.mods_tidy P _) 0 C (fun _ => rfl) (by rw [em]; exact ok) (by rw [← p1, ← p3]; exact c1) hcache hcold
  rw [em] at a2
  obtain ⟨D, hD⟩ : ∃ D, D = run (callSlots i (l.inMode tr).slot 0 ((l.inMode tr).cmods P)) C := ⟨_, rfl⟩
  rw [← hD] at a2
  obtain ⟨θ', n', b1, b2, b3⟩ := stats_run (s := s) (X := X) (i := i) (D := D) hfit hp (hk'.moves hm) (θ := fun w => (C w).θ i)
    (seen := fun w => (C w).seen i) (fun u => by rw [a2 u]) (fun u => by rw [a2 u]) hs' hX (fun u => by rw [a2 u])
  refine ⟨progOK_append.2 ⟨a1, stats_ok _ _ _, localPhase_ok _, trivial⟩, θ', n', cache, fun u => ?_, b2, b3, a3, a4, hH, c2⟩
  have hrun : run (callLayer P i (l.inMode tr)) C u = sync scopePhase (sync ((l.inMode tr).statsPhase i) D) u := by
    unfold callLayer
    rw [run_append, ← hD]
    rfl
  rw [hrun, scope_sync, hk.stats tr i, b1 u, a2 u]

end Verif.Net
