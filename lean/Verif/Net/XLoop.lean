import Verif.Net.XSteady

/-!
# Networks with interpolation and batch norm: calls and training steps in any order and mode

As `Verif.Net.Loop`.  Every job is done in training mode or in evaluation mode.
-/

namespace Verif.Net

variable {F β : Type}

/-! ## Programs -/

section
variable [Field F]

/-- The layers with the parameters `T` the workers have at the moment; the first one is layer `i`. -/
def xnetWith (P : Cart) (T : Nat → Nat → Nat → Tensor F) : Nat → List (XLayer F β) → List (XLayer F β)
  | _, [] => []
  | i, l :: ls => l.withPar P (fun w => T w i) :: xnetWith (l.out P) T (i + 1) ls

variable [LinearOrder F] [FloorRing F]

/-- The backward pass with the parameters a worker has. -/
def xloopBack (P : Cart) (ls : List (XLayer F β)) : Prog (LSt F) (NMsg F) :=
  (family (fun θ => xnetBack P (xnetWith P (fun _ => θ) 0 ls)) (xnetBack P ls).length).map (ctxPhase LSt.θ bLens)

/-- The program of a job; the network is in the mode the job asks for. -/
def xjobProg (P : Cart) (ls : List (XLayer F β)) (rg : Nat → Bool) : Bool × Job F → Prog (LSt F) (NMsg F)
  | (tr, .eval x) => startPhase x rg :: (callNet P 0 (ls.map (XLayer.inMode tr)) ++ [outPhase])
  | (tr, .train x seed opt) => startPhase x rg :: (callNet P 0 (ls.map (XLayer.inMode tr)) ++ lossPhase seed ::
      (xloopBack P (ls.map (XLayer.inMode tr)) ++ [updPhase opt]))

/-- All jobs, one after the other. -/
def xjobsProg (P : Cart) (ls : List (XLayer F β)) (rg : Nat → Bool) (js : List (Bool × Job F)) : Prog (LSt F) (NMsg F) :=
  js.flatMap (xjobProg P ls rg)

/-! ## Specification: the sequential network -/

/-- The network after a call. -/
def xnoteNet : List (XLayer F β) → List Nat × (List Nat → F) → List (XLayer F β)
  | [], _ => []
  | l :: ls, x => l.note x :: xnoteNet ls (l.seq x)

/-- The network after a training step: batch norms have seen the batch, and the parameters have changed. -/
def xstepNet (opt : F → F → F) : List (XLayer F β) → List Nat × (List Nat → F) → (List Nat → F) → List (XLayer F β)
  | [], _, _ => []
  | l :: ls, x, Y => (l.upd opt x (xadjNet ls (l.seq x) Y)).note x :: xstepNet opt ls (l.seq x) Y

/-- The network after a task in the mode `tr`. -/
def xnext (ls : List (XLayer F β)) : Bool × Task F → List (XLayer F β)
  | (tr, .eval s X) => xnoteNet (ls.map (XLayer.inMode tr)) (s, X)
  | (tr, .train s X Y opt) => xstepNet opt (ls.map (XLayer.inMode tr)) (s, X) (Y (xseqNet (ls.map (XLayer.inMode tr)) (s, X)).2)

/-- The result of a task, with the shape of its input. -/
def xout (ls : List (XLayer F β)) : Bool × Task F → List (List Nat × (List Nat → F))
  | (tr, .eval s X) => [(s, (xseqNet (ls.map (XLayer.inMode tr)) (s, X)).2)]
  | (_, .train _ _ _ _) => []

/-- The network after some tasks. -/
def xnetAfter (ls : List (XLayer F β)) (ks : List (Bool × Task F)) : List (XLayer F β) := ks.foldl xnext ls

/-- The results of some tasks, with the shapes of their inputs. -/
def xoutsOf : List (XLayer F β) → List (Bool × Task F) → List (List Nat × (List Nat → F))
  | _, [] => []
  | ls, k :: ks => xout ls k ++ xoutsOf (xnext ls k) ks

omit [LinearOrder F] [FloorRing F] in
/-- The workers store the parameters and statistics of the network; `T w i p` is parameter `p` of layer `i` on worker `w`. -/
def XStoresNet (P : Cart) (t : TorchDtype) (T : Nat → Nat → Nat → Tensor F) (n : Nat → Nat → Nat) : Nat → List (XLayer F β) → Prop
  | _, [] => True
  | i, l :: ls => l.Stores P t (fun w => T w i) (fun w => n w i) ∧ XStoresNet (l.out P) t T n (i + 1) ls

end

/-! ## All layers forward -/

section
variable [Field F]

omit [Field F] in
theorem Holds.scope [Field F] {W : List Nat} {P : Cart} {L : Layout} {t : TorchDtype} {X : List Nat → F} {S : Nat → NSt F}
    (h : Holds W P L t X S) : Holds W P L t X fun w => (S w).scope := ⟨h.calm, h.batch, h.parts, h.data⟩

omit [Field F] in
theorem XStoresNet.congr {t : TorchDtype} {T T' : Nat → Nat → Nat → Tensor F} {n n' : Nat → Nat → Nat} (ls : List (XLayer F β)) :
    ∀ {P : Cart} {i : Nat}, XStoresNet P t T n i ls → (∀ w j, i ≤ j → T' w j = T w j ∧ n' w j = n w j) → XStoresNet P t T' n' i ls := by
  induction ls with
  | nil => exact fun _ _ => trivial
  | cons l ls ih =>
    intro P i h e
    refine ⟨?_, ih h.2 fun w j hj => e w j (by omega)⟩
    have e1 : (fun w => T' w i) = fun w => T w i := funext fun w => (e w i (Nat.le_refl i)).1
    have e2 : (fun w => n' w i) = fun w => n w i := funext fun w => (e w i (Nat.le_refl i)).2
    rw [e1, e2]
    exact h.1

variable [LinearOrder F] [FloorRing F]

/-- Every layer finds the same in all its setups; the structures of the input are those of `B`, those of the parameters are those
of `T₀`. -/
inductive NetSteady (W : List Nat) (t : TorchDtype) (T₀ : Nat → Nat → Nat → Tensor F) (K : Nat → Nat → Option Mem) :
    Nat → Cart → Layout → List (XLayer F β) → (Nat → NSt F) → Cart → Layout → Prop
  | nil {i P L B} : NetSteady W t T₀ K i P L [] B P L
  | cons {i P L L' P'' L'' B B'} {l : XLayer F β} {ls : List (XLayer F β)} (h : XFits W t P L l L')
      (hb : LayerSteady W t P L l (fun w => T₀ w i) B (fun q => K (Nat.pair i q)) B')
      (hs : NetSteady W t T₀ K (i + 1) (l.out P) L' ls B' P'' L'') : NetSteady W t T₀ K i P L (l :: ls) B P'' L''

variable {W : List Nat} {t : TorchDtype} {T₀ : Nat → Nat → Nat → Tensor F} {K K' : Nat → Nat → Option Mem} {i : Nat} {P P' : Cart}
  {L L' : Layout} {ls G : List (XLayer F β)} {B : Nat → NSt F} {s : List Nat} {X Y : List Nat → F}

theorem NetSteady.congr (h : NetSteady W t T₀ K i P L ls B P' L') (e : ∀ j, i ≤ j → ∀ q, K' (Nat.pair j q) = K (Nat.pair j q)) :
    NetSteady W t T₀ K' i P L ls B P' L' := by
  induction h with
  | nil => exact .nil
  | @cons i P L L' P'' L'' B B' l ls h hb hs ih =>
    refine .cons h ?_ (ih fun j hj => e j (by omega))
    have : (fun q => K' (Nat.pair i q)) = fun q => K (Nat.pair i q) := funext (e i (Nat.le_refl i))
    rw [this]
    exact hb

theorem XNetFits.steady (h : XNetFits W t P L ls P' L') (T₀ : Nat → Nat → Nat → Tensor F) : ∀ (i : Nat) (B : Nat → NSt F) {s : List Nat},
    Placed W P L s → ∃ K, NetSteady W t T₀ K i P L ls B P' L' := by
  induction h with
  | nil => exact fun _ _ _ _ => ⟨fun _ _ => none, .nil⟩
  | @cons P L L' P'' L'' l ls h hs ih =>
    intro i B s hp
    obtain ⟨K, B', hb⟩ := h.steady hp (fun w => T₀ w i) B
    obtain ⟨K', hK'⟩ := ih (i + 1) B' (h.placed hp fun _ => 0)
    refine ⟨fun q => if (Nat.unpair q).1 = i then K (Nat.unpair q).2 else K' q, .cons h ?_ (hK'.congr fun j hj q => ?_)⟩
    · simpa using hb
    · simp only [Nat.unpair_pair]
      rw [if_neg (by omega)]

variable [IsStrictOrderedRing F]

/-- What the forward pass keeps for the backward pass, latest first. -/
def scopedSnaps (P : Cart) : List (XLayer F β) → (Nat → NSt F) → Nat → List (NSt F)
  | [], _, _ => []
  | l :: ls, S, w => scopedSnaps (l.out P) ls (fun u => (run (l.cuts P).flatten S u).scope) w ++ snaps (l.cuts P) S w

/-- The forward pass of a network. -/
theorem NetSteady.call (h : NetSteady W t T₀ K i P L ls B P' L') (ht : t = .float32 ∨ t = .float64) (tr : Bool) (hm : ∀ l ∈ ls, l.Moves) :
    ∀ {G : List (XLayer F β)} {C : Nat → LSt F} {s : List Nat} {X : List Nat → F}, Placed W P L s → List.Forall₂ XKin ls G →
    XStoresNet P t (fun w => (C w).θ) (fun w => (C w).seen) i G →
    (∀ w j p, p < 2 → ((C w).θ j p).bare = (T₀ w j p).bare) → (∀ w, (C w).b.s.bare = (B w).bare) →
    (Holds W P L t X fun w => (C w).b.s) → (∀ u, (C u).cold = false) →
    (∀ j q, OneOf (K (Nat.pair j q)) fun u => (C u).cache (Nat.pair j q)) →
    ProgOK W (callNet P i (ls.map (XLayer.inMode tr))) C ∧
    ∃ (T : Nat → Nat → Nat → Tensor F) (n : Nat → Nat → Nat) (cache : Nat → Nat → Option Mem) (Z : Nat → NSt F),
      (∀ u, run (callNet P i (ls.map (XLayer.inMode tr))) C u = { C u with
        b := ⟨Z u, scopedSnaps P (xnetWith P (fun w => (C w).θ) i (G.map (XLayer.inMode tr))) (fun w => (C w).b.s) u ++ (C u).b.tape,
          (C u).b.grads⟩
        θ := T u
        seen := n u
        cache := cache u }) ∧
      Holds W P' L' t (xseqNet (G.map (XLayer.inMode tr)) (s, X)).2 Z ∧
      XStoresNet P t T n i (xnoteNet (G.map (XLayer.inMode tr)) (s, X)) ∧
      (∀ u j p, p < 2 → T u j p = (C u).θ j p) ∧ (∀ u j, j < i → T u j = (C u).θ j ∧ n u j = (C u).seen j) ∧
      ∀ j q, OneOf (K (Nat.pair j q)) fun u => cache u (Nat.pair j q) := by
  induction h with
  | nil =>
    intro G C s X _ hk _ _ _ hX _ hc
    cases hk
    exact ⟨trivial, fun u => (C u).θ, fun u => (C u).seen, fun u => (C u).cache, fun u => (C u).b.s, fun _ => rfl, hX, trivial, fun _ _ _ _ => rfl,
      fun _ _ _ => ⟨rfl, rfl⟩, hc⟩
  | @cons i P L L' P'' L'' B B' l ls h hb hs ih =>
    intro G C s X hp hk hst hlow hB hX hcold hc
    cases hk with
    | @cons _ g _ G k1 k2 =>
      obtain ⟨a1, θ', n', cache, a2, a3, a4, a5, a6, a7, a8⟩ := callLayer_run (C := C) (X := X) h ht hp (hm l List.mem_cons_self) hb k1 tr hst.1
        (fun w p hp => hlow w i p hp) hB hX hcold (hc i)
      obtain ⟨D, hD⟩ : ∃ D, D = run (callLayer P i (l.inMode tr)) C := ⟨_, rfl⟩
      rw [← hD] at a2
      have eS : (fun w => (D w).b.s) = fun w => (run (((g.inMode tr).withPar P fun w => (C w).θ i).cuts P).flatten (fun w => (C w).b.s) w).scope := by
        funext w
        rw [a2 w]
      have hout : (g.inMode tr).out P = l.out P := by rw [XLayer.out_inMode, k1.out P]
      have hfit := h.kin (k1.trans (kin_inMode tr g)) (XLayer.stores_inMode tr hst.1)
      have hp' := hfit.placed hp X
      rw [XLayer.out_withPar, hout, (XLayer.stores_inMode tr hst.1).seq_adj.1] at hp'
      have eθ : ∀ w j, i + 1 ≤ j → (D w).θ j = (C w).θ j ∧ (D w).seen j = (C w).seen j := by
        intro w j hj
        rw [a2 w]
        dsimp only
        rw [if_neg (by omega)]
        refine ⟨?_, rfl⟩
        funext p
        rw [if_neg (by omega)]
      obtain ⟨b1, T, n, cache', Z, b2, b3, b4, b5, b6, b7⟩ := ih (fun l' hl' => hm l' (List.mem_cons_of_mem _ hl')) (G := G) (C := D)
        (s := ((g.inMode tr).seq (s, X)).1) (X := ((g.inMode tr).seq (s, X)).2) hp' k2
        (by rw [← k1.out P]; exact hst.2.congr _ eθ) (fun w j p hp2 => by
          rw [a2 w]
          dsimp only
          split
          · next e => rw [a3 w p hp2, ← e]; exact hlow w j p hp2
          · exact hlow w j p hp2) (fun w => by rw [a2 w]; exact a8 w) (by rw [eS]; exact a7.scope) (fun u => by rw [a2 u]; exact hcold u)
        (fun j q => by
          by_cases e : j = i
          · subst e
            have : (fun u => (D u).cache (Nat.pair j q)) = fun u => cache u (Nat.pair j q) := funext fun u => by rw [a2 u]
            rw [this]
            exact a5 q
          · have : (fun u => (D u).cache (Nat.pair j q)) = fun u => (C u).cache (Nat.pair j q) := funext fun u => by
              rw [a2 u]
              exact a6 u _ fun r hr => e (Nat.pair_eq_pair.1 hr).1
            rw [this]
            exact hc j q)
      have hcall : callNet P i ((l :: ls).map (XLayer.inMode tr)) = callLayer P i (l.inMode tr) ++ callNet (l.out P) (i + 1) (ls.map (XLayer.inMode tr)) := by
        show callLayer P i (l.inMode tr) ++ callNet ((l.inMode tr).out P) (i + 1) _ = _
        rw [XLayer.out_inMode]
      have eT : ∀ j ls', xnetWith (l.out P) (fun w => (D w).θ) (i + 1 + j) ls' = xnetWith (l.out P) (fun w => (C w).θ) (i + 1 + j) (ls' : List (XLayer F β)) := by
        intro j ls'
        generalize l.out P = Q
        induction ls' generalizing Q j with
        | nil => rfl
        | cons l' ls' ih' =>
          have e : (fun w => (D w).θ (i + 1 + j)) = fun w => (C w).θ (i + 1 + j) := funext fun w => (eθ w _ (by omega)).1
          show l'.withPar Q (fun w => (D w).θ (i + 1 + j)) :: xnetWith (l'.out Q) _ (i + 1 + (j + 1)) ls' = _
          rw [e, ih']
          rfl
      refine ⟨?_, T, n, cache', Z, fun u => ?_, b3, ⟨?_, ?_⟩, fun u j p hp2 => ?_, fun u j hj => ?_, b7⟩
      · rw [hcall, progOK_append, ← hD]
        exact ⟨a1, b1⟩
      · rw [hcall, run_append, ← hD, b2 u, a2 u, eS]
        dsimp only
        have := eT 0
        rw [Nat.add_zero] at this
        rw [this]
        show _ = LSt.mk ⟨Z u, (scopedSnaps (((g.inMode tr).withPar P fun w => (C w).θ i).out P) (xnetWith ((g.inMode tr).out P) _ (i + 1) _) _ u ++ _) ++ _, _⟩ _ _ _ _ _ _ _
        rw [XLayer.out_withPar, hout, List.append_assoc]
      · have e1 : (fun w => T w i) = θ' := by
          funext w p
          rw [(b6 w i (Nat.lt_succ_self i)).1, a2 w]
          exact if_pos rfl
        have e2 : (fun w => n w i) = n' := by
          funext w
          rw [(b6 w i (Nat.lt_succ_self i)).2, a2 w]
          exact if_pos rfl
        rw [e1, e2]
        exact a4
      · rw [(kin_note (g.inMode tr) (s, X)).out P, hout]
        exact b4
      · rw [b5 u j p hp2, a2 u]
        dsimp only
        split
        · next e => rw [a3 u p hp2, e]
        · rfl
      · have := b6 u j (by omega)
        rw [this.1, this.2, a2 u]
        dsimp only
        rw [if_neg (by omega)]
        refine ⟨?_, rfl⟩
        funext p
        rw [if_neg (by omega)]

end

end Verif.Net
