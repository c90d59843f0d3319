import Verif.Net.XLoop

/-!
# Networks with interpolation and batch norm: backward passes, updates and all jobs

As `Verif.Net.Loop`.
-/

namespace Verif.Net

variable {F β : Type}

section
variable [Field F] [LinearOrder F] [FloorRing F]

/-! ## The backward pass with the parameters a worker has -/

theorem XLayer.back_with (P : Cart) (l : XLayer F β) (θ : Nat → Nat → Tensor F) :
    (l.withPar P θ).back P = backProg ((l.withPar P θ).adjProg P) ++ [dropPhase (l.cuts P).length (l.has P)] := by
  have e : ((l.withPar P θ).cuts P).length = (l.cuts P).length := by
    rw [← XLayer.mods_prog, ← XLayer.mods_prog, List.length_map, List.length_map, (l.mods_size P θ).length_eq]
  have e' : (l.withPar P θ).has P = l.has P := by
    cases l with
    | base l => exact l.has_withPar P θ
    | up | norm => rfl
  rw [XLayer.back, e, e']

theorem XLayer.adj_low (P : Cart) (l : XLayer F β) {θ θ' : Nat → Nat → Tensor F} (h : ∀ w p, p < 2 → θ w p = θ' w p) :
    (l.withPar P θ).adjProg P = (l.withPar P θ').adjProg P := by
  cases l with
  | base l =>
    show (l.withPar P θ).adjProg P = (l.withPar P θ').adjProg P
    rw [l.withPar_low P h]
  | up | norm => rfl

theorem XLayer.adj_at (P : Cart) (l : XLayer F β) {θ : Nat → Nat → Tensor F} (w : Nat) :
    CProgAt w ((l.withPar P fun _ => θ w).adjProg P) ((l.withPar P θ).adjProg P) := by
  cases l with
  | base l => exact l.adj_at P w
  | up | norm => exact CProgAt.refl _ _

theorem XLayer.adj_size (P : Cart) (l : XLayer F β) (θ : Nat → Nat → Tensor F) :
    ((l.withPar P θ).adjProg P).length = (l.adjProg P).length := by
  cases l with
  | base l =>
    show ((l.withPar P θ).adjProg P).length = (l.adjProg P).length
    rw [← TLayer.segs_flatten, ← TLayer.segs_flatten, List.length_flatten, List.length_flatten, List.map_map, List.map_map]
    have := congrArg (List.map Prod.snd) (l.segs_size P θ)
    rw [List.map_map, List.map_map] at this
    exact congrArg List.sum this
  | up | norm => rfl

theorem xback_low {T T' : Nat → Nat → Nat → Tensor F} (h : ∀ w j p, p < 2 → T w j p = T' w j p) (ls : List (XLayer F β)) :
    ∀ P i, xnetBack P (xnetWith P T i ls) = xnetBack P (xnetWith P T' i ls) := by
  induction ls with
  | nil => exact fun _ _ => rfl
  | cons l ls ih =>
    intro P i
    simp only [xnetWith, xnetBack, XLayer.out_withPar, XLayer.back_with, ih, l.adj_low P fun w p hp => h w i p hp]

theorem xback_at {T : Nat → Nat → Nat → Tensor F} (w : Nat) (ls : List (XLayer F β)) : ∀ P i,
    BProgAt w (xnetBack P (xnetWith P (fun _ => T w) i ls)) (xnetBack P (xnetWith P T i ls)) := by
  induction ls with
  | nil => exact fun _ _ => .nil
  | cons l ls ih =>
    intro P i
    simp only [xnetWith, xnetBack, XLayer.out_withPar, XLayer.back_with]
    exact List.rel_append (ih _ _) (List.rel_append (backProg_at (l.adj_at P (θ := fun w => T w i) w)) (.cons rfl .nil))

theorem xback_size {T : Nat → Nat → Nat → Tensor F} (ls : List (XLayer F β)) : ∀ P i,
    (xnetBack P (xnetWith P T i ls)).length = (xnetBack P ls).length := by
  induction ls with
  | nil => exact fun _ _ => rfl
  | cons l ls ih =>
    intro P i
    simp only [xnetWith, xnetBack, XLayer.out_withPar, List.length_append, ih, backProg, List.length_map, l.adj_size,
      List.length_singleton, XLayer.back]

theorem xback_kin {T : Nat → Nat → Nat → Tensor F} {ls G : List (XLayer F β)} (tr : Bool) (h : List.Forall₂ XKin ls G) : ∀ P i,
    xnetBack P (xnetWith P T i (G.map (XLayer.inMode tr))) = xnetBack P (xnetWith P T i (ls.map (XLayer.inMode tr))) := by
  induction h with
  | nil => exact fun _ _ => rfl
  | @cons l g ls G h _ ih =>
    intro P i
    obtain ⟨-, h1, h2, h3, -⟩ := h.parts tr P fun w => T w i
    simp only [List.map_cons, xnetWith, xnetBack, XLayer.out_withPar, XLayer.out_inMode, h.out P, ih, XLayer.back, h1, h2, h3]

theorem XNetFits.kin {W : List Nat} {t : TorchDtype} {P P' : Cart} {L L' : Layout} {ls : List (XLayer F β)}
    {T : Nat → Nat → Nat → Tensor F} {n : Nat → Nat → Nat} (h : XNetFits W t P L ls P' L') : ∀ {G : List (XLayer F β)} {i : Nat},
    List.Forall₂ XKin ls G → XStoresNet P t T n i G → XNetFits W t P L (xnetWith P T i G) P' L' := by
  induction h with
  | nil => intro G i hk _; cases hk; exact .nil
  | @cons P L L' P'' L'' l ls h hs ih =>
    intro G i hk hst
    cases hk with
    | @cons _ g _ G k1 k2 =>
      refine .cons (h.kin k1 hst.1) ?_
      rw [XLayer.out_withPar]
      have := ih (i := i + 1) k2
      rw [← k1.out P] at this
      exact this hst.2

omit [Field F] [LinearOrder F] [FloorRing F] in
theorem XStoresNet.inMode {t : TorchDtype} {T : Nat → Nat → Nat → Tensor F} {n : Nat → Nat → Nat} (tr : Bool) (ls : List (XLayer F β)) :
    ∀ {P : Cart} {i : Nat}, XStoresNet P t T n i ls → XStoresNet P t T n i (ls.map (XLayer.inMode tr)) := by
  induction ls with
  | nil => exact fun _ => trivial
  | cons l ls ih =>
    intro P i h
    refine ⟨XLayer.stores_inMode tr h.1, ?_⟩
    rw [XLayer.out_inMode]
    exact ih h.2

theorem XStoresNet.adj {t : TorchDtype} {T : Nat → Nat → Nat → Tensor F} {n : Nat → Nat → Nat} (ls : List (XLayer F β)) :
    ∀ (P : Cart) (i : Nat) (x : List Nat × (List Nat → F)) (Y : List Nat → F),
    XStoresNet P t T n i ls → xadjNet (xnetWith P T i ls) x Y = xadjNet ls x Y := by
  induction ls with
  | nil => exact fun _ _ _ _ _ => rfl
  | cons l ls ih =>
    intro P i x Y h
    simp only [xnetWith, xadjNet, h.1.seq_adj.1, h.1.seq_adj.2, ih _ _ _ Y h.2]

omit [Field F] [LinearOrder F] [FloorRing F] in
theorem xkins_trans {a b : List (XLayer F β)} (h : List.Forall₂ XKin a b) : ∀ {c}, List.Forall₂ XKin b c → List.Forall₂ XKin a c := by
  induction h with
  | nil => exact fun h => h
  | cons h _ ih => intro c hc; cases hc with | cons h' hs => exact .cons (h.trans h') (ih hs)

omit [Field F] [LinearOrder F] [FloorRing F] in
theorem xkins_inMode (tr : Bool) (ls : List (XLayer F β)) : List.Forall₂ XKin ls (ls.map (XLayer.inMode tr)) := by
  rw [List.forall₂_map_right_iff]
  exact List.forall₂_same.2 fun l _ => kin_inMode tr l

theorem xkins_note (ls : List (XLayer F β)) : ∀ x : List Nat × (List Nat → F), List.Forall₂ XKin ls (xnoteNet ls x) := by
  induction ls with
  | nil => exact fun _ => .nil
  | cons l ls ih => exact fun x => .cons (kin_note ..) (ih _)

theorem xkins_step (opt : F → F → F) (Y : List Nat → F) (ls : List (XLayer F β)) : ∀ x : List Nat × (List Nat → F),
    List.Forall₂ XKin ls (xstepNet opt ls x Y) := by
  induction ls with
  | nil => exact fun _ => .nil
  | cons l ls ih => exact fun x => .cons ((xkin_upd ..).trans (kin_note ..)) (ih _)

variable {W : List Nat} {t : TorchDtype} {P P' : Cart} {L L' : Layout} {ls G : List (XLayer F β)} {s : List Nat} {X Y : List Nat → F}
  {g : XLayer F β} {rg : Nat → Bool}

/-! ## Updates -/

omit [Field F] [LinearOrder F] [FloorRing F] in
theorem held_step {P : Cart} {bs : List Nat} {f d : Nat → F} {w : Nat} {a z : Tensor F} (opt : F → F → F) (h : Held P bs f w a)
    (hz : Held P bs d w z) : Held P bs (fun c => opt (f c) (d c)) w (updT opt a z) := by
  refine ⟨h.shape, fun i hi => ?_⟩
  rw [updT_val (by rw [h.shape]; exact hi), h.val i hi, hz.val i hi]

/-- After the update the workers store the parameters and statistics after the step. -/
theorem XLayer.Stores.step {x : List Nat × (List Nat → F)} {gr : Nat → Nat → Option (Tensor F)} {θ θ' : Nat → Nat → Tensor F}
    {n' : Nat → Nat} (hf : XFits W t P L (g.withPar P θ) L') (hn : (g.note x).Stores P t θ' n')
    (hlow : ∀ w p, p < 2 → θ' w p = θ w p) (hg : (g.withPar P θ).Grads P x Y gr) (opt : F → F → F) :
    ((g.upd opt x Y).note x).Stores P t (fun w => stepPar opt (θ' w) (gr w)) n' := by
  obtain ⟨s, X⟩ := x
  cases g with
  | base l =>
    have e := l.withPar_low P fun w p hp => (hlow w p hp).symm
    have hf' : XFits W t P L (.base (l.withPar P θ)) L' := hf
    have hg' : (l.withPar P θ).Grads P (s, X) Y gr := hg
    rw [e] at hf' hg'
    cases hf' with
    | base hf' => exact TLayer.Stores.step hn hf' hg' opt
  | up => trivial
  | norm c cs cb ca N sq gamma beta =>
    obtain ⟨h1, h2⟩ := hn
    obtain ⟨g1, g2⟩ := hg
    have hshape : ∀ w p, (stepPar opt (θ' w) (gr w) p).shape = (θ' w p).shape := fun w p => (tensor_bare.1 (stepPar_bare ..)).1
    have hnone : ∀ w p, ¬ (N.M.affine = true ∧ N.rgp = true ∧ (p = 0 ∨ p = 1)) → gr w p = none := by
      intro w p hne
      rcases hz : gr w p with _ | z
      · rfl
      · obtain ⟨-, q1, q2, q3, -⟩ := g2 w p z hz
        exact absurd ⟨q1, q2, q3⟩ hne
    refine ⟨fun ha => ?_, fun ht => ?_⟩
    · obtain ⟨p1, p2, p3⟩ := h1 ha
      have bare : ∀ w ∈ P.members, (stepPar opt (θ' w) (gr w) 0).bare = (stepPar opt (θ' w) (gr w) 1).bare := by
        intro w hw
        rw [stepPar_bare, stepPar_bare]
        exact p3 w hw
      rcases Bool.eq_false_or_eq_true N.rgp with hr | hr
      · simp only [ha, hr, Bool.and_self, if_true]
        have q := g1 ha hr
        refine ⟨⟨fun r hm => ?_, fun v hv => ?_⟩, ⟨fun r hm => ?_, fun v hv => ?_⟩, bare⟩
        · obtain ⟨⟨z, e, hz⟩, -⟩ := q r hm
          rw [stepPar_some e]
          exact ⟨held_step opt (p1.held r hm).1 hz, (p1.held r hm).2⟩
        · rw [hshape]
          exact p1.batch v hv
        · obtain ⟨-, z, e, hz⟩ := q r hm
          rw [stepPar_some e]
          exact ⟨held_step opt (p2.held r hm).1 hz, (p2.held r hm).2⟩
        · rw [hshape]
          exact p2.batch v hv
      · simp only [hr, Bool.and_false, Bool.false_eq_true, if_false]
        have e : ∀ p, (fun w => stepPar opt (θ' w) (gr w) p) = fun w => θ' w p := fun p =>
          funext fun w => stepPar_none (hnone w p fun h => by rw [hr] at h; cases h.2.1)
        refine ⟨?_, ?_, bare⟩
        · rw [e]
          exact p1
        · rw [e]
          exact p2
    · have e : ∀ p, 2 ≤ p → ∀ w, stepPar opt (θ' w) (gr w) p = θ' w p := fun p hp w =>
        stepPar_none (hnone w p fun h => by omega)
      simp only [e 2 (by omega), e 3 (by omega)]
      exact h2 ht

/-- The whole network. -/
theorem XStoresNet.step {T T₁ T₂ : Nat → Nat → Nat → Tensor F} {n n₁ : Nat → Nat → Nat} (opt : F → F → F) (G : List (XLayer F β)) :
    ∀ {P : Cart} {L : Layout} {i : Nat} {x : List Nat × (List Nat → F)} {grs : List (Nat → Nat → Option (Tensor F))},
    XStoresNet P t T n i G → XNetFits W t P L (xnetWith P T i G) P' L' → XNetGrads P (xnetWith P T i G) x Y grs →
    XStoresNet P t T₁ n₁ i (xnoteNet G x) → (∀ w j p, p < 2 → T₁ w j p = T w j p) →
    (∀ w j, i ≤ j → T₂ w j = stepPar opt (T₁ w j) ((grs[j - i]?).elim (fun _ => none) fun gr => gr w)) →
    XStoresNet P t T₂ n₁ i (xstepNet opt G x Y) := by
  induction G with
  | nil => exact fun _ _ _ _ _ _ => trivial
  | cons l ls ih =>
    intro P L i x grs h hf hg h1 hlow hT
    obtain ⟨gr, grs, rfl, g1, g2⟩ := hg
    cases hf with
    | cons f1 f2 =>
      rw [h.1.seq_adj.1] at g1 g2
      rw [XLayer.out_withPar] at f2 g2
      rw [XStoresNet.adj ls _ _ _ _ h.2] at g1
      constructor
      · have e : (fun w => T₂ w i) = fun w => stepPar opt (T₁ w i) (gr w) := by
          funext w
          rw [hT w i (Nat.le_refl i), Nat.sub_self]
          rfl
        rw [e]
        exact XLayer.Stores.step (θ := fun w => T w i) (θ' := fun w => T₁ w i) f1 h1.1 (fun w p hp => hlow w i p hp) g1 opt
      · rw [((xkin_upd opt l x _).trans (kin_note _ x)).out P]
        have h12 := h1.2
        rw [(kin_note l x).out P] at h12
        refine ih h.2 f2 g2 h12 hlow fun w j hj => ?_
        rw [hT w j (by omega), show j - i = (j - (i + 1)) + 1 by omega, List.getElem?_cons_succ]

variable [IsStrictOrderedRing F]

/-! ## The backward pass -/

theorem XNetFits.backScoped (h : XNetFits W t P L ls P' L') (ht : t = .float32 ∨ t = .float64) :
    ∀ {s : List Nat} {X : List Nat → F} {S : Nat → NSt F}
    {B : Nat → BSt F} {rest : Nat → List (NSt F)}, Placed W P L s → Holds W P L t X S →
    HoldsG W P' L' t Y (fun w => (B w).s) → (∀ w ∈ W, (B w).tape = scopedSnaps P ls S w ++ rest w) →
    ProgOK W (xnetBack P ls) B ∧ HoldsG W P L t (xadjNet ls (s, X) Y) (fun w => (run (xnetBack P ls) B w).s) ∧
    (∀ w ∈ W, (run (xnetBack P ls) B w).tape = rest w) ∧
    ∃ grs, XNetGrads P ls (s, X) Y grs ∧
      ∀ w, (run (xnetBack P ls) B w).grads = grs.map (fun gr => gr w) ++ (B w).grads := by
  induction h with
  | nil =>
    intro s X S B rest _ _ hG hT
    exact ⟨trivial, hG, fun w hw => hT w hw, [], rfl, fun _ => rfl⟩
  | @cons P L L' P'' L'' l ls h hs ih =>
    intro s X S B rest hp hS hG hT
    have hS' := (h.realises (X := X) ht hp S hS).2.scope
    obtain ⟨a1, a2, a3, grs, a4, a5⟩ := ih (s := (l.seq (s, X)).1) (B := B) (rest := fun w => snaps (l.cuts P) S w ++ rest w)
      (h.placed hp X) hS' hG fun w hw => by
        rw [hT w hw, scopedSnaps, List.append_assoc]
    obtain ⟨b1, b2, b3, gr, b4, b5⟩ := h.back ht hp (B := run (xnetBack (l.out P) ls) B) hS a2 a3
    have hrun : run (xnetBack P (l :: ls)) B = run (l.back P) (run (xnetBack (l.out P) ls) B) := run_append ..
    refine ⟨progOK_append.2 ⟨a1, b1⟩, ?_, fun w hw => ?_, gr :: grs, ⟨gr, grs, rfl, b4, a4⟩, fun w => ?_⟩
    · rw [hrun]
      exact b2
    · rw [hrun]
      exact b3 w hw
    · rw [hrun, b5 w, a5 w]
      rfl

theorem xloopBack_run (h : XNetFits W t P L ls P' L') (ht : t = .float32 ∨ t = .float64) (hp : Placed W P L s) (tr : Bool)
    (hk : List.Forall₂ XKin ls G) {T : Nat → Nat → Nat → Tensor F} {n : Nat → Nat → Nat} (hs : XStoresNet P t T n 0 G) {S : Nat → NSt F}
    (hS : Holds W P L t X S) {C : Nat → LSt F} (hG : HoldsG W P' L' t Y fun w => (C w).b.s)
    (hlow : ∀ w j p, p < 2 → (C w).θ j p = T w j p)
    (hT : ∀ w ∈ W, (C w).b.tape = scopedSnaps P (xnetWith P T 0 (G.map (XLayer.inMode tr))) S w) :
    ProgOK W (xloopBack P (ls.map (XLayer.inMode tr))) C ∧
      ∃ b : Nat → BSt F, (∀ u, run (xloopBack P (ls.map (XLayer.inMode tr))) C u = { C u with b := b u }) ∧
      (∀ w ∈ W, (b w).s.err = false) ∧
      ∃ grs, XNetGrads P (xnetWith P T 0 (G.map (XLayer.inMode tr))) (s, X) Y grs ∧
        ∀ w, (b w).grads = grs.map (fun gr => gr w) ++ (C w).b.grads := by
  have hn' := h.kin (xkins_trans hk (xkins_inMode tr G)) (hs.inMode tr)
  have hat := family_at (T := fun w => (C w).θ) (fun θ => xnetBack P (xnetWith P (fun _ => θ) 0 (ls.map (XLayer.inMode tr))))
    (xback_size (T := fun w => (C w).θ) (ls.map (XLayer.inMode tr)) P 0).symm
    fun u => xback_at (T := fun w => (C w).θ) u (ls.map (XLayer.inMode tr)) P 0
  rw [xback_low hlow, ← xback_kin tr hk] at hat
  obtain ⟨a1, a2, -, a3⟩ := hn'.backScoped (rest := fun _ => []) (B := fun w => (C w).b) ht hp hS hG fun w hw => by rw [hT w hw, List.append_nil]
  obtain ⟨b1, b2⟩ := ctx_run (W := W) (ctx := LSt.θ) (L := bLens (F := F)) (fun _ _ => rfl)
    (family (fun θ => xnetBack P (xnetWith P (fun _ => θ) 0 (ls.map (XLayer.inMode tr)))) (xnetBack P (ls.map (XLayer.inMode tr))).length) C
  rw [hat] at b1 b2
  exact ⟨b1 a1, _, b2, a2.calm, a3⟩

/-! ## One job -/

/-- Between two jobs. -/
structure XReady (W : List Nat) (P : Cart) (ls : List (XLayer F β)) (P' : Cart) (L' : Layout) (t : TorchDtype)
    (T₀ : Nat → Nat → Nat → Tensor F) (K : Nat → Nat → Option Mem) (G : List (XLayer F β))
    (Zs : List (List Nat × (List Nat → F))) (C : Nat → LSt F) : Prop where
  stores : XStoresNet P t (fun w => (C w).θ) (fun w => (C w).seen) 0 G
  kin : List.Forall₂ XKin ls G
  bare : ∀ w j p, p < 2 → ((C w).θ j p).bare = (T₀ w j p).bare
  cold : ∀ u, (C u).cold = false
  cache : ∀ j q, OneOf (K (Nat.pair j q)) fun u => (C u).cache (Nat.pair j q)
  calm : ∀ w ∈ W, (C w).bad = false ∧ (C w).b.s.err = false
  outs : ∀ w ∈ W, HoldsOuts P' (fun _ => L') t w (C w).outs Zs

variable {T₀ : Nat → Nat → Nat → Tensor F} {K : Nat → Nat → Option Mem} {σ : Nat → Tensor F} {C : Nat → LSt F}
  {Zs : List (List Nat × (List Nat → F))}

/-- The forward pass. -/
theorem XReady.call (hC : XReady W P ls P' L' t T₀ K G Zs C) (hn : NetSteady W t T₀ K 0 P L ls (fun w => feed (σ w) (rg w)) P' L')
    (ht : t = .float32 ∨ t = .float64) (hp : Placed W P L s) (hm : ∀ l ∈ ls, l.Moves) (tr : Bool) {x : Nat → Tensor F}
    (hx : ∀ w, (x w).bare = (σ w).bare) (hX : Holds W P L t X fun w => feed (x w) (rg w)) :
    ProgOK W (callNet P 0 (ls.map (XLayer.inMode tr))) (sync (startPhase x rg) C) ∧
    ∃ (T : Nat → Nat → Nat → Tensor F) (n : Nat → Nat → Nat) (cache : Nat → Nat → Option Mem) (Z : Nat → NSt F),
      (∀ u, run (callNet P 0 (ls.map (XLayer.inMode tr))) (sync (startPhase x rg) C) u = { C u with
        b := ⟨Z u, scopedSnaps P (xnetWith P (fun w => (C w).θ) 0 (G.map (XLayer.inMode tr))) (fun w => feed (x w) (rg w)) u, []⟩
        θ := T u
        bad := (C u).bad || (C u).b.s.err
        seen := n u
        cache := cache u }) ∧
      Holds W P' L' t (xseqNet (G.map (XLayer.inMode tr)) (s, X)).2 Z ∧
      XStoresNet P t T n 0 (xnoteNet (G.map (XLayer.inMode tr)) (s, X)) ∧
      (∀ u j p, p < 2 → T u j p = (C u).θ j p) ∧
      ∀ j q, OneOf (K (Nat.pair j q)) fun u => cache u (Nat.pair j q) := by
  obtain ⟨a1, T, n, cache, Z, a2, a3, a4, a5, -, a6⟩ := hn.call (C := sync (startPhase x rg) C) (X := X) ht tr hm hp hC.kin hC.stores hC.bare
    (fun w => feed_bare (hx w)) hX hC.cold hC.cache
  refine ⟨a1, T, n, cache, Z, fun u => ?_, a3, a4, a5, a6⟩
  rw [a2 u]
  show LSt.mk ⟨_, _ ++ [], _⟩ _ _ _ _ _ _ _ = _
  rw [List.append_nil]
  rfl

/-- One job. -/
theorem XReady.job (hC : XReady W P ls P' L' t T₀ K G Zs C) (hn : NetSteady W t T₀ K 0 P L ls (fun w => feed (σ w) (rg w)) P' L')
    (hf : XNetFits W t P L ls P' L') (ht : t = .float32 ∨ t = .float64) (hp : Placed W P L L.global) (hm : ∀ l ∈ ls, l.Moves) (tr : Bool)
    {j : Job F} {k : Task F} (hj : j.Does W P (fun _ => L) P' (fun _ => L') t rg k) (hx : ∀ w, (j.x w).bare = (σ w).bare) :
    ProgOK W (xjobProg P ls rg (tr, j)) C ∧
      XReady W P ls P' L' t T₀ K (xnext G (tr, k)) (Zs ++ xout G (tr, k)) (run (xjobProg P ls rg (tr, j)) C) := by
  cases j with
  | eval x =>
    cases k with
    | train => exact hj.elim
    | eval s X =>
      obtain ⟨hs, hj⟩ := hj
      change L.global = s at hs
      subst hs
      change ∀ w, (x w).bare = (σ w).bare at hx
      obtain ⟨o1, T, n, cache, Z, r1, hH, h4, h5, h6⟩ := hC.call hn ht hp hm tr hx hj
      have hrun : ∀ u, run (xjobProg P ls rg (tr, .eval x)) C u = { C u with
          b := ⟨Z u, scopedSnaps P (xnetWith P (fun w => (C w).θ) 0 (G.map (XLayer.inMode tr))) (fun w => feed (x w) (rg w)) u, []⟩
          θ := T u
          bad := (C u).bad || (C u).b.s.err
          seen := n u
          cache := cache u
          outs := (C u).outs ++ [(Z u).t] } := by
        intro u
        show run (callNet P 0 (ls.map (XLayer.inMode tr)) ++ [outPhase]) (sync (startPhase x rg) C) u = _
        rw [run_append]
        show sync outPhase _ u = _
        rw [out_sync, r1 u]
      refine ⟨⟨localPhase_ok _, progOK_append.2 ⟨o1, localPhase_ok _, trivial⟩⟩, ?_, ?_, fun w j p hp2 => ?_, fun u => ?_, fun j q => ?_,
        fun w hw => ?_, fun w hw => ?_⟩
      · refine XStoresNet.congr _ h4 fun w j _ => ?_
        rw [hrun w]
        exact ⟨rfl, rfl⟩
      · exact xkins_trans hC.kin (xkins_trans (xkins_inMode tr G) (xkins_note _ _))
      · rw [hrun w]
        show (T w j p).bare = _
        rw [h5 w j p hp2]
        exact hC.bare w j p hp2
      · rw [hrun u]
        exact hC.cold u
      · have e : (fun u => (run (xjobProg P ls rg (tr, .eval x)) C u).cache (Nat.pair j q)) = fun u => cache u (Nat.pair j q) :=
          funext fun u => by rw [hrun u]
        rw [e]
        exact h6 j q
      · rw [hrun w]
        exact ⟨by simp [hC.calm w hw], hH.calm w hw⟩
      · rw [hrun w]
        refine List.rel_append (hC.outs w hw) (.cons (fun hm => ?_) .nil)
        obtain ⟨rg', hrg⟩ := hH.parts
        exact ⟨congrArg Prod.fst (hrg w hm), congrArg (·.2.1) (hrg w hm), hH.data w hm⟩
  | train x seed opt =>
    cases k with
    | eval => exact hj.elim
    | train s X Yf opt' =>
      obtain ⟨hs, hX, hseed, rfl⟩ := hj
      change L.global = s at hs
      subst hs
      change ∀ w, (x w).bare = (σ w).bare at hx
      obtain ⟨o1, T, n, cache, Z, r1, hH, h4, h5, h6⟩ := hC.call hn ht hp hm tr hx hX
      obtain ⟨D, hD⟩ : ∃ D, D = sync (lossPhase seed) (run (callNet P 0 (ls.map (XLayer.inMode tr))) (sync (startPhase x rg) C)) := ⟨_, rfl⟩
      have hDu : ∀ u, D u = { C u with
          b := ⟨{ Z u with t := seed u (Z u).t },
            scopedSnaps P (xnetWith P (fun w => (C w).θ) 0 (G.map (XLayer.inMode tr))) (fun w => feed (x w) (rg w)) u, []⟩
          θ := T u
          bad := (C u).bad || (C u).b.s.err
          seen := n u
          cache := cache u } := by
        intro u
        rw [hD, loss_sync, r1 u]
      have hsD : (fun w => (D w).b.s) = fun w => { Z w with t := seed w (Z w).t } := funext fun u => by rw [hDu u]
      obtain ⟨ok, b, hb, hcalm, grs, hgs, hgr⟩ := xloopBack_run (C := D) (X := X) (S := fun w => feed (x w) (rg w))
        (Y := Yf (xseqNet (G.map (XLayer.inMode tr)) (L.global, X)).2) hf ht hp tr hC.kin hC.stores hX (by rw [hsD]; exact (hseed _).holdsG hH)
        (fun w j p hp2 => by rw [hDu w]; exact h5 w j p hp2) fun w _ => by rw [hDu w]
      have hrun : ∀ u, run (xjobProg P ls rg (tr, .train x seed opt)) C u = { D u with
          b := b u
          θ := fun i => stepPar opt (T u i) (((b u).grads[i]?).getD fun _ => none) } := by
        intro u
        show run (callNet P 0 (ls.map (XLayer.inMode tr)) ++ lossPhase seed :: (xloopBack P (ls.map (XLayer.inMode tr)) ++ [updPhase opt]))
          (sync (startPhase x rg) C) u = _
        rw [run_append]
        show run (xloopBack P (ls.map (XLayer.inMode tr)) ++ [updPhase opt]) (sync (lossPhase seed) _) u = _
        rw [← hD, run_append]
        show sync (updPhase opt) _ u = _
        rw [upd_sync, hb u]
        dsimp only
        rw [hDu u]
      refine ⟨⟨localPhase_ok _, progOK_append.2 ⟨o1, localPhase_ok _, ?_⟩⟩, ?_, ?_, fun w j p hp2 => ?_, fun u => ?_, fun j q => ?_,
        fun w hw => ?_, fun w hw => ?_⟩
      · rw [← hD]
        exact progOK_append.2 ⟨ok, localPhase_ok _, trivial⟩
      · refine XStoresNet.congr (T := fun u i => stepPar opt (T u i) (((b u).grads[i]?).getD fun _ => none)) (n := n) _ ?_ fun w j _ => ?_
        · refine XStoresNet.step opt _ (hC.stores.inMode tr) (hf.kin (xkins_trans hC.kin (xkins_inMode tr G)) (hC.stores.inMode tr)) hgs h4
            h5 fun w j _ => ?_
          rw [Nat.sub_zero]
          rw [hgr w, hDu w, List.append_nil, List.getElem?_map]
          cases grs[j]? <;> rfl
        · rw [hrun w]
          dsimp only
          rw [hDu w]
          exact ⟨rfl, rfl⟩
      · exact xkins_trans hC.kin (xkins_trans (xkins_inMode tr G) (xkins_step _ _ _ _))
      · rw [hrun w]
        dsimp only
        rw [stepPar_bare, h5 w j p hp2]
        exact hC.bare w j p hp2
      · rw [hrun u, hDu u]
        exact hC.cold u
      · have e : (fun u => (run (xjobProg P ls rg (tr, .train x seed opt)) C u).cache (Nat.pair j q)) = fun u => cache u (Nat.pair j q) :=
          funext fun u => by rw [hrun u, hDu u]
        rw [e]
        exact h6 j q
      · rw [hrun w, hDu w]
        exact ⟨by simp [hC.calm w hw], hcalm w hw⟩
      · rw [hrun w, hDu w]
        show HoldsOuts P' (fun _ => L') t w (C w).outs (Zs ++ [])
        rw [List.append_nil]
        exact hC.outs w hw

/-! ## All jobs -/

theorem XReady.jobs (hn : NetSteady W t T₀ K 0 P L ls (fun w => feed (σ w) (rg w)) P' L')
    (hf : XNetFits W t P L ls P' L') (ht : t = .float32 ∨ t = .float64) (hp : Placed W P L L.global) (hm : ∀ l ∈ ls, l.Moves)
    {js : List (Bool × Job F)} {ks : List (Bool × Task F)}
    (hj : List.Forall₂ (fun j k => j.1 = k.1 ∧ j.2.Does W P (fun _ => L) P' (fun _ => L') t rg k.2) js ks) :
    ∀ {G : List (XLayer F β)} {Zs : List (List Nat × (List Nat → F))} {C : Nat → LSt F},
    XReady W P ls P' L' t T₀ K G Zs C → (∀ j ∈ js, ∀ w, (j.2.x w).bare = (σ w).bare) →
    ProgOK W (xjobsProg P ls rg js) C ∧
      XReady W P ls P' L' t T₀ K (xnetAfter G ks) (Zs ++ xoutsOf G ks) (run (xjobsProg P ls rg js) C) := by
  induction hj with
  | nil =>
    intro G Zs C hC _
    refine ⟨trivial, ?_⟩
    rw [xoutsOf, List.append_nil]
    exact hC
  | @cons j k js ks h _ ih =>
    intro G Zs C hC hx
    obtain ⟨tr, j⟩ := j
    obtain ⟨tr', k⟩ := k
    obtain ⟨rfl, h⟩ := h
    obtain ⟨a1, a2⟩ := hC.job hn hf ht hp hm tr h (hx _ List.mem_cons_self)
    obtain ⟨b1, b2⟩ := ih a2 fun j' h' => hx j' (List.mem_cons_of_mem _ h')
    refine ⟨progOK_append.2 ⟨a1, b1⟩, ?_⟩
    show XReady W P ls P' L' t T₀ K _ _ (run (xjobProg P ls rg (tr, j) ++ xjobsProg P ls rg js) C)
    rw [run_append, xoutsOf, ← List.append_assoc]
    exact b2

omit [LinearOrder F] [FloorRing F] [IsStrictOrderedRing F] in
/-- Before the first job. -/
theorem XReady.init (K : Nat → Nat → Option Mem) (h : XStoresNet P t T₀ (fun _ _ => 0) 0 ls) :
    XReady W P ls P' L' t T₀ K ls [] fun w => LSt.fresh (T₀ w) :=
  ⟨h, List.forall₂_same.2 fun l _ => XKin.refl l, fun _ _ _ _ => rfl, fun _ => rfl, fun _ _ => .inl rfl, fun _ _ => ⟨rfl, rfl⟩,
    fun _ _ => .nil⟩

end

end Verif.Net
