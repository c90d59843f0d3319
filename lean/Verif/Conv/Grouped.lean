import Verif.Conv.Props
import Verif.Params.Props

/-!
# Groups of the channel-distributed convolution: what the layer computes (C57)

Every worker applies `groups` to its own channels (`conv_channel.py:213-224`).  The layer is an ungrouped convolution
whose weights connect channels that have the same group on their worker, which is never a convolution grouped as the
sequential one.
-/

namespace Verif

section
variable {R : Type} [CommSemiring R]

/-- The weight of the ungrouped convolution that is the same as a grouped one: zero between channels of different
groups. -/
def ungroup (g ci co : Nat) (wt : List Nat → R) : List Nat → R
  | k :: c :: κ => if k / (co / g) = c / (ci / g) then wt (k :: (c % (ci / g)) :: κ) else 0
  | _ => 0

theorem winRead_channel {W : WinParams} {n : List Nat} {x : List Nat → R} {b c : Nat} {o κ : List Nat}
    (h : n.getD 1 0 ≤ c) :
    winRead 0 n (1 :: 1 :: W.s) (1 :: 1 :: W.d) (0 :: 0 :: W.p) x (b :: c :: o) (0 :: 0 :: κ) = 0 := by
  unfold winRead
  rw [winPos_point, winPos_point]
  refine if_neg fun hh => ?_
  match n, hh, h with
  | _ :: m :: n, hh, h =>
    have := hh.2.1.2
    have h' : m ≤ c := h
    omega

theorem torchConv_ungroup {W : WinParams} {g ci co : Nat} (hg : 0 < g) (hci : g ∣ ci) (hco : g ∣ co) (hi : 0 < ci)
    (ho : 0 < co) (wt : List Nat → R) (b : Nat → R) {n : List Nat} (hn : n.getD 1 0 = ci) (x : List Nat → R) :
    torchConv W g ci co wt b n x = torchConv W 1 ci co (ungroup g ci co wt) b n x := by
  funext l
  match l with
  | [] => rfl
  | [_] => rfl
  | a :: k :: o =>
    show b k + _ = b k + _
    congr 1
    obtain ⟨m, rfl⟩ := hci
    obtain ⟨q, rfl⟩ := hco
    have hm : 0 < m := Nat.pos_of_mul_pos_left hi
    have hq : 0 < q := Nat.pos_of_mul_pos_left ho
    simp only [Nat.mul_div_cancel_left _ hg, Nat.div_one]
    by_cases hk : k < g * q
    · have hG : k / q < g := (Nat.div_lt_iff_lt_mul hq).2 hk
      have hk0 : k / (g * q) = 0 := Nat.div_eq_of_lt hk
      simp only [hk0, Nat.zero_mul, Nat.zero_add, ungroup, Nat.mul_div_cancel_left _ hg]
      have e : ∀ c ∈ Finset.range (g * m), (boxSum W.k fun κ => (if k / q = c / m then wt (k :: (c % m) :: κ) else 0) *
          winRead 0 n (1 :: 1 :: W.s) (1 :: 1 :: W.d) (0 :: 0 :: W.p) x (a :: c :: o) (0 :: 0 :: κ)) =
          if c / m = k / q then boxSum W.k fun κ => wt (k :: (c % m) :: κ) *
            winRead 0 n (1 :: 1 :: W.s) (1 :: 1 :: W.d) (0 :: 0 :: W.p) x (a :: c :: o) (0 :: 0 :: κ) else 0 := by
        intro c _
        by_cases hc : c / m = k / q
        · simp only [hc, if_true]
        · simp only [if_neg hc, if_neg (Ne.symm hc), zero_mul, boxSum_zero]
      rw [Finset.sum_congr rfl e, ← Finset.sum_filter]
      refine Finset.sum_nbij' (fun c => k / q * m + c) (fun c => c % m) ?_ ?_ ?_ ?_ ?_
      · intro c hc
        have hc := Finset.mem_range.1 hc
        refine Finset.mem_filter.2 ⟨Finset.mem_range.2 ?_, ?_⟩
        · calc k / q * m + c < k / q * m + m := by omega
            _ = (k / q + 1) * m := by rw [Nat.add_mul, Nat.one_mul]
            _ ≤ g * m := Nat.mul_le_mul_right _ hG
        · rw [Nat.mul_comm, Nat.mul_add_div hm, Nat.div_eq_of_lt hc, Nat.add_zero]
      · intro c _
        exact Finset.mem_range.2 (Nat.mod_lt _ hm)
      · intro c hc
        show (k / q * m + c) % m = c
        rw [Nat.mul_comm, Nat.mul_add_mod, Nat.mod_eq_of_lt (Finset.mem_range.1 hc)]
      · intro c hc
        show k / q * m + c % m = c
        rw [← (Finset.mem_filter.1 hc).2, Nat.mul_comm]
        exact Nat.div_add_mod c m
      · intro c hc
        show (boxSum W.k fun κ => wt (k :: c :: κ) * _) = boxSum W.k fun κ => wt (k :: (k / q * m + c) % m :: κ) * _
        rw [Nat.mul_comm, Nat.mul_add_mod, Nat.mod_eq_of_lt (Finset.mem_range.1 hc)]
    · have h1 : g ≤ k / q := (Nat.le_div_iff_mul_le hq).2 (by omega)
      have h2 : 1 ≤ k / (g * q) := (Nat.le_div_iff_mul_le ho).2 (by omega)
      rw [Finset.sum_eq_zero, Finset.sum_eq_zero]
      · intro c _
        refine Eq.trans (boxSum_congr fun κ _ => ?_) (boxSum_zero _)
        rw [winRead_channel, mul_zero]
        rw [hn]
        calc g * m = 1 * (g * m) := (Nat.one_mul _).symm
          _ ≤ k / (g * q) * (g * m) := Nat.mul_le_mul_right _ h2
          _ ≤ _ := Nat.le_add_right _ _
      · intro c _
        refine Eq.trans (boxSum_congr fun κ _ => ?_) (boxSum_zero _)
        rw [winRead_channel, mul_zero]
        rw [hn]
        calc g * m ≤ k / q * m := Nat.mul_le_mul_right _ h1
          _ ≤ _ := Nat.le_add_right _ _

theorem torchConvLayer_ungroup {W : WinParams} {g ci co : Nat} (hg : 0 < g) (hci : g ∣ ci) (hco : g ∣ co) (hb : Bool)
    (wt b : List Nat → R) (x : Tensor R) :
    torchConvLayer W g ci co hb wt b x = torchConvLayer W 1 ci co hb (ungroup g ci co wt) b x := by
  unfold torchConvLayer
  by_cases h : 0 < ci ∧ 0 < co ∧ x.shape.length = W.k.length + 2 ∧ x.shape.getD 1 0 = ci ∧ (∀ j, j < W.k.length →
      W.d.getD j 0 * (W.k.getD j 0 - 1) + 1 ≤ x.shape.getD (j + 2) 0 + 2 * W.p.getD j 0)
  · obtain ⟨h1, h2, h3, h4, h5⟩ := h
    rw [if_pos ⟨h1, h2, hg, hci, hco, h3, h4, h5⟩, if_pos ⟨h1, h2, Nat.one_pos, Nat.one_dvd _, Nat.one_dvd _, h3, h4, h5⟩,
      torchConv_ungroup hg hci hco h1 h2 wt _ h4]
  · rw [if_neg fun ⟨h1, h2, _, _, _, h3, h4, h5⟩ => h ⟨h1, h2, h3, h4, h5⟩,
      if_neg fun ⟨h1, h2, _, _, _, h3, h4, h5⟩ => h ⟨h1, h2, h3, h4, h5⟩]

variable {C : ChanConv} {Po Pi : Nat} {Sp : List Nat} {B : Nat} {N : List Nat} {dt : TorchDtype} {X : List Nat → R}
  {I : Inputs R} {wt b : Nat → List Nat → R} {Wt β : List Nat → R} {rg : Nat → Bool}

/-- The global weight `Wt` of an ungrouped convolution that connects an output and an input channel by the local weight
of the worker that has both, if the two channels have the same group on this worker, and not at all otherwise. -/
structure GroupedParams (C : ChanConv) (Po Pi : Nat) (wt b : Nat → List Nat → R) (Wt β : List Nat → R) : Prop where
  weight : ∀ v ∈ C.Pw.members, ∀ k < subsize Po ((C.Pw.coord v).getD 0 0) C.Co,
    ∀ c < subsize Pi ((C.Pw.coord v).getD 1 0) C.Ci, ∀ κ, InBounds κ C.W.k →
      Wt ((startIdx Po ((C.Pw.coord v).getD 0 0) C.Co + k) :: (startIdx Pi ((C.Pw.coord v).getD 1 0) C.Ci + c) :: κ) =
        if k / (subsize Po ((C.Pw.coord v).getD 0 0) C.Co / C.groups) =
            c / (subsize Pi ((C.Pw.coord v).getD 1 0) C.Ci / C.groups) then
          wt v (k :: (c % (subsize Pi ((C.Pw.coord v).getD 1 0) C.Ci / C.groups)) :: κ) else 0
  bias : ∀ v ∈ C.Pw.members, (C.Pw.coord v).getD 1 0 = 0 →
    ∀ k < subsize Po ((C.Pw.coord v).getD 0 0) C.Co,
      β [startIdx Po ((C.Pw.coord v).getD 0 0) C.Co + k] = b v [k]

/-- `groups` divides the channels of every worker. -/
def GroupsFit (C : ChanConv) (Po Pi : Nat) : Prop :=
  0 < C.groups ∧ ∀ v ∈ C.Pw.members, C.groups ∣ subsize Pi ((C.Pw.coord v).getD 1 0) C.Ci ∧
    C.groups ∣ subsize Po ((C.Pw.coord v).getD 0 0) C.Co

theorem grouped_local (h : ChanValid C Po Pi Sp) (hg : GroupsFit C Po Pi) :
    LocalConvs C Po Pi C.W (fun v => ungroup C.groups (subsize Pi ((C.Pw.coord v).getD 1 0) C.Ci)
      (subsize Po ((C.Pw.coord v).getD 0 0) C.Co) (wt v)) b (channelLocal C wt b) := by
  intro v hv x
  obtain ⟨e0, e1⟩ := h.localChannels hv
  have hb : C.storesBias v = C.addsBias v := by
    rw [ChanConv.storesBias, ChanConv.addsBias, Cart.index_eq hv, Option.getD_some]
  rw [channelLocal, e0, e1, hb]
  exact torchConvLayer_ungroup hg.1 (hg.2 v hv).1 (hg.2 v hv).2 _ _ _ _

theorem GroupedParams.chan (h : GroupedParams C Po Pi wt b Wt β) :
    ChanParams C Po Pi (fun v => ungroup C.groups (subsize Pi ((C.Pw.coord v).getD 1 0) C.Ci)
      (subsize Po ((C.Pw.coord v).getD 0 0) C.Co) (wt v)) b Wt β :=
  ⟨fun v hv k hk c hc κ hκ => (h.weight v hv k hk c hc κ hκ).symm, fun v hv h0 k hk => (h.bias v hv h0 k hk).symm⟩

/-- C57, what the layer computes: with more than one worker, and `groups` dividing the channels of each, the workers of
`P_y` get the blocks of the ungrouped convolution with the weights `Wt` (`GroupedParams`). -/
theorem C57_computes (h : ChanValid C Po Pi Sp) (h1 : ∀ n ∈ Sp, n = 1) (hSp : Sp.length = C.W.k.length)
    (hN : N.length = C.W.k.length) (hg : GroupsFit C Po Pi)
    (hfit : ∀ j, j < C.W.k.length →
      C.W.d.getD j 0 * (C.W.k.getD j 0 - 1) + 1 ≤ N.getD j 0 + 2 * C.W.p.getD j 0)
    (hx : EvenBlocks C.Px (B :: C.Ci :: N) dt X I.x) (hp : GroupedParams C Po Pi wt b Wt β)
    (hs : ∀ u, C.Active u → (I.x u).shape ≠ []) (hm : C.Pw.members.length ≠ 1) :
    ∃ out : Nat → Tensor R, (∀ u ∈ C.Py.members, channelForward C wt b I rg u = some (out u)) ∧
      EvenBlocks C.Py (torchConvShape C.W C.Co (B :: C.Ci :: N)) dt
        (torchConv C.W 1 C.Ci C.Co Wt (fun c => if C.useBias then β [c] else 0) (B :: C.Ci :: N) X) out := by
  have hT := channel_windows h h1 hSp hN hfit hx
  obtain ⟨f1, -⟩ := chan_forward (rg := rg) h (W' := C.W) ⟨rfl, rfl, rfl⟩ hT (grouped_local (wt := wt) (b := b) h hg) hp.chan hs
  have key : ∀ u ∈ C.Py.members, channelForward C wt b I rg u =
      stackForward (chanBroadcast C.Px C.Pw) (chanReduce C.Pw C.yCast) I (channelLocal C wt b) rg u := by
    intro u hu
    rw [channelForward, if_neg (fun hh => hh.2.1 hu), h.cast true fun _ => h1]
    simp only
    rw [if_neg hm]
  have : Nonempty (Tensor R) := ⟨I.x 0⟩
  choose! out hout using f1
  exact ⟨out, fun u hu => (key u hu).trans (hout u hu).1, fun u hu => (hout u hu).2.1, fun u hu => (hout u hu).2.2.1,
    fun u hu => (hout u hu).2.2.2⟩

/-- C57: if `groups` does not divide the channels of some worker, the call raises an exception. -/
theorem C57_raises (h : ChanValid C Po Pi Sp) (h1 : ∀ n ∈ Sp, n = 1) (hm : C.Pw.members.length ≠ 1)
    (hg : ¬ GroupsFit C Po Pi) {w : Nat} (hw : C.Active w) : channelForward C wt b I rg w = none := by
  have hv : ∃ v ∈ C.Pw.members, ∀ x, channelLocal C wt b v x = none := by
    by_contra hc
    refine hg ⟨?_, fun v hv => ?_⟩
    · obtain ⟨v, hv⟩ : ∃ v, v ∈ C.Pw.members := by
        refine List.exists_mem_of_ne_nil _ fun e => ?_
        have := h.wfw.size
        rw [e, h.shw] at this
        obtain ⟨p1, p2, p3⟩ := h.pos
        have h0 : (Po :: Pi :: Sp).prod ≠ 0 := by
          rw [Ne, List.prod_eq_zero_iff]
          intro hz
          rcases List.mem_cons.1 hz with hz | hz
          · omega
          · rcases List.mem_cons.1 hz with hz | hz
            · omega
            · exact absurd (p3 0 hz) (by omega)
        exact h0 this.symm
      by_contra h0
      refine hc ⟨v, hv, fun x => ?_⟩
      exact if_neg fun hh => h0 hh.2.2.1
    · by_contra h0
      refine hc ⟨v, hv, fun x => ?_⟩
      obtain ⟨e0, e1⟩ := h.localChannels hv
      rw [channelLocal, e0, e1]
      exact if_neg fun hh => h0 ⟨hh.2.2.2.1, hh.2.2.2.2.1⟩
  obtain ⟨v, hv, hn⟩ := hv
  rw [channelForward, if_neg (fun hh => hw.elim hh.1 fun h' => h'.elim hh.2.2 hh.2.1), h.cast true fun _ => h1]
  simp only
  rw [if_neg hm, stackForward, if_neg (fun hh => hw.elim hh.1 fun h' => h'.elim hh.2.2 hh.2.1), if_neg]
  rw [List.all_eq_true]
  intro hall
  have := hall v (mem_groupUnion.2 (.inl (mem_groupUnion.2 (.inr hv))))
  rw [midTensor, if_pos (show v ∈ (chanBroadcast C.Px C.Pw).Py.members from hv)] at this
  cases hb : bcastForward (chanBroadcast C.Px C.Pw) I v with
  | none => rw [hb] at this; cases this
  | some x => rw [hb] at this; simp [hn] at this

/-- The block and the place in it of a cell. -/
theorem evenBlock_unique {P n p p' k k' : Nat} (hk : k < subsize P p n) (hk' : k' < subsize P p' n)
    (e : startIdx P p n + k = startIdx P p' n + k') : p = p' ∧ k = k' := by
  have key : ∀ {p p' k k' : Nat}, k < subsize P p n → startIdx P p n + k = startIdx P p' n + k' → ¬ p < p' := by
    intro p p' k k' hk e hlt
    have h1 := startIdx_mono P n (show p + 1 ≤ p' from hlt)
    rw [startIdx_succ, stopIdx] at h1
    omega
  have hp : p = p' := by
    have := key hk e
    have := key hk' e.symm
    omega
  subst hp
  exact ⟨rfl, by omega⟩

/-- There are such weights and biases if workers with the same channels have the same parameters. -/
theorem grouped_exists_of (wt b : Nat → List Nat → R) (hinj : ∀ v ∈ C.Pw.members, ∀ v' ∈ C.Pw.members, (C.Pw.coord v).getD 0 0 = (C.Pw.coord v').getD 0 0 →
      (C.Pw.coord v).getD 1 0 = (C.Pw.coord v').getD 1 0 → wt v = wt v' ∧ b v = b v') :
    ∃ Wt β, GroupedParams C Po Pi wt b Wt β := by
  classical
  let Q : List Nat → R → Prop := fun l a => ∃ v ∈ C.Pw.members, ∃ k < subsize Po ((C.Pw.coord v).getD 0 0) C.Co,
    ∃ c < subsize Pi ((C.Pw.coord v).getD 1 0) C.Ci, ∃ κ,
      l = (startIdx Po ((C.Pw.coord v).getD 0 0) C.Co + k) :: (startIdx Pi ((C.Pw.coord v).getD 1 0) C.Ci + c) :: κ ∧
      a = if k / (subsize Po ((C.Pw.coord v).getD 0 0) C.Co / C.groups) =
            c / (subsize Pi ((C.Pw.coord v).getD 1 0) C.Ci / C.groups) then
          wt v (k :: (c % (subsize Pi ((C.Pw.coord v).getD 1 0) C.Ci / C.groups)) :: κ) else 0
  let Qb : List Nat → R → Prop := fun l a => ∃ v ∈ C.Pw.members, (C.Pw.coord v).getD 1 0 = 0 ∧
    ∃ k < subsize Po ((C.Pw.coord v).getD 0 0) C.Co, l = [startIdx Po ((C.Pw.coord v).getD 0 0) C.Co + k] ∧ a = b v [k]
  refine ⟨fun l => if hl : ∃ a, Q l a then hl.choose else 0, fun l => if hl : ∃ a, Qb l a then hl.choose else 0, ?_, ?_⟩
  · intro v hv k hk c hc κ hκ
    have hl : ∃ a, Q ((startIdx Po ((C.Pw.coord v).getD 0 0) C.Co + k) ::
        (startIdx Pi ((C.Pw.coord v).getD 1 0) C.Ci + c) :: κ) a := ⟨_, v, hv, k, hk, c, hc, κ, rfl, rfl⟩
    rw [dif_pos hl]
    obtain ⟨v', hv', k', hk', c', hc', κ', e, ea⟩ := hl.choose_spec
    rw [ea]
    injection e with e1 e
    injection e with e2 e
    obtain ⟨a1, rfl⟩ := evenBlock_unique hk hk' e1
    obtain ⟨a2, rfl⟩ := evenBlock_unique hc hc' e2
    rw [(hinj v hv v' hv' a1 a2).1, a1, a2, e]
  · intro v hv h0 k hk
    have hl : ∃ a, Qb [startIdx Po ((C.Pw.coord v).getD 0 0) C.Co + k] a := ⟨_, v, hv, h0, k, hk, rfl, rfl⟩
    rw [dif_pos hl]
    obtain ⟨v', hv', h0', k', hk', e, ea⟩ := hl.choose_spec
    rw [ea]
    injection e with e1 e
    obtain ⟨a1, rfl⟩ := evenBlock_unique hk hk' e1
    rw [(hinj v hv v' hv' a1 (h0.trans h0'.symm)).2]

/-- There are such weights and biases. -/
theorem grouped_exists (h : ChanValid C Po Pi Sp) (h1 : ∀ n ∈ Sp, n = 1) (wt b : Nat → List Nat → R) :
    ∃ Wt β, GroupedParams C Po Pi wt b Wt β := by
  have hinj : ∀ v ∈ C.Pw.members, ∀ v' ∈ C.Pw.members, (C.Pw.coord v).getD 0 0 = (C.Pw.coord v').getD 0 0 →
      (C.Pw.coord v).getD 1 0 = (C.Pw.coord v').getD 1 0 → v = v' := by
    intro v hv v' hv' e0 e1
    refine coords_inj h.wfw hv hv' ?_
    obtain ⟨o, j, s, e, -, -, hs⟩ := h.coordW hv
    obtain ⟨o', j', s', e', -, -, hs'⟩ := h.coordW hv'
    have : s = s' := by
      have z : ∀ {t : List Nat}, InBounds t Sp → t = List.replicate Sp.length 0 := by
        intro t ht
        refine List.eq_replicate_iff.2 ⟨ht.length_eq, fun a ha => ?_⟩
        obtain ⟨i, hi, rfl⟩ := List.mem_iff_getElem.1 ha
        have := (inBounds_iff.1 ht).2 i (by rw [← ht.length_eq]; exact hi)
        have hlt : i < Sp.length := by rw [← ht.length_eq]; exact hi
        rw [List.getD_eq_getElem _ _ hi, List.getD_eq_getElem _ _ hlt, h1 _ (List.getElem_mem hlt)] at this
        omega
      rw [z hs, z hs']
    rw [e, e'] at e0 e1
    have e0 : o = o' := e0
    have e1 : j = j' := e1
    show C.Pw.coord v = C.Pw.coord v'
    rw [e, e', e0, e1, this]
  exact grouped_exists_of wt b fun v hv v' hv' e0 e1 => by rw [hinj v hv v' hv' e0 e1]; exact ⟨rfl, rfl⟩

theorem winRead_const {n : List Nat} (s d p o κ : List Nat) (t : R) :
    winRead 0 n s d p (fun _ => t) o κ = if InBoundsI (winPos s d p o κ) n then t else 0 := rfl

omit [CommSemiring R] in
/-- Two distributions into the same even blocks agree everywhere. -/
theorem EvenBlocks.agree {P : Cart} {G : List Nat} {X X' : List Nat → R} {x x' : Nat → Tensor R} (wf : P.WF)
    (hl : P.shape.length = G.length) (h : EvenBlocks P G dt X x) (h' : EvenBlocks P G dt X' x')
    (he : ∀ u ∈ P.members, x u = x' u) {g : List Nat} (hg : InBounds g G) : X g = X' g := by
  have hlen : (Layout.balanced P.shape G).length = P.shape.length := by
    rw [← Layout.length_pshape, Layout.balanced_pshape hl]
  obtain ⟨i, ⟨hi, hb⟩, -⟩ := ((Layout.balanced P.shape G).unique_owner g).1 (by rwa [Layout.balanced_global hl wf.pos])
  rw [Layout.balanced_pshape hl] at hi
  obtain ⟨u, hu, rfl⟩ := wf.exists_coord hi
  obtain ⟨e1, e2⟩ := exists_shift hb
  have hlu : (P.coord u).length = (Layout.balanced P.shape G).length := by rw [hlen, hi.length_eq]
  have hloc := (Layout.inBox_shift (l := List.zipWith (· - ·) g ((Layout.balanced P.shape G).startAt (P.coord u))) hlu).1
    ⟨by rw [e2, Layout.length_startAt hlu], by rw [e1]; exact hb⟩
  have a1 := h.val u hu _ hloc
  have a2 := h'.val u hu _ hloc
  rw [e1] at a1 a2
  rw [← a1, ← a2, he u hu]

/-- With partitioned channels there are an output channel and an input channel, the first ones of their blocks, that no
sequential convolution with these groups connects. -/
theorem grouped_differs [Nontrivial R] (h : ChanValid C Po Pi Sp) (hg : GroupsFit C Po Pi) (h2 : 2 ≤ C.groups)
    (hB : 0 < B) {o κ : List Nat} (hκ : InBounds κ C.W.k)
    (hr : InBoundsI (winPos C.W.s C.W.d C.W.p o κ) N) (hm : Po * Pi ≠ 1) :
    ∃ p j, p < Po ∧ j < Pi ∧ startIdx Po p C.Co < C.Co ∧ ∀ Wt β : List Nat → R,
      (∀ κ', InBounds κ' C.W.k → Wt (startIdx Po p C.Co :: startIdx Pi j C.Ci :: κ') = if κ' = κ then 1 else 0) →
      β [startIdx Po p C.Co] = 0 → ∀ (Wt' : List Nat → R) (β' : Nat → R), ∃ X : List Nat → R,
        torchConv C.W C.groups C.Ci C.Co Wt' β' (B :: C.Ci :: N) X (0 :: startIdx Po p C.Co :: o) ≠
          torchConv C.W 1 C.Ci C.Co Wt (fun c => if C.useBias then β [c] else 0) (B :: C.Ci :: N) X
            (0 :: startIdx Po p C.Co :: o) := by
  classical
  obtain ⟨hPo, hPi, hSpos⟩ := h.pos
  let p := if Pi = 1 then Po - 1 else 0
  let K := startIdx Po p C.Co
  let J := startIdx Pi (Pi - 1) C.Ci
  have hp : p < Po := by
    show (if Pi = 1 then Po - 1 else 0) < Po
    split <;> omega
  obtain ⟨v, hv, ev⟩ := h.wfw.exists_coord (i := p :: (Pi - 1) :: List.replicate Sp.length 0) (by
    rw [h.shw]
    refine ⟨hp, by omega, inBounds_iff.2 ⟨by simp, fun j hj => ?_⟩⟩
    rw [List.getD_eq_getElem _ _ (by simpa using hj), List.getD_eq_getElem _ _ hj, List.getElem_replicate]
    exact hSpos _ (List.getElem_mem hj))
  have hsi : 0 < subsize Pi (Pi - 1) C.Ci := subsize_pos hPi h.channels.1
  have hso : 0 < subsize Po p C.Co := subsize_pos hPo h.channels.2
  have hK : K < C.Co := by
    have := startIdx_add_lt hp hso
    omega
  have hJ : J < C.Ci := by
    have := startIdx_add_lt (show Pi - 1 < Pi by omega) hsi
    omega
  obtain ⟨d1, d2⟩ := hg.2 v hv
  rw [ev] at d1 d2
  have hgi : C.groups ≤ C.Ci := by
    have := Nat.le_of_dvd hsi d1
    have := startIdx_add_lt (show Pi - 1 < Pi by omega) (show subsize Pi (Pi - 1) C.Ci - 1 < subsize Pi (Pi - 1) C.Ci by omega)
    omega
  have hgo : C.groups ≤ C.Co := by
    have := Nat.le_of_dvd hso d2
    have := startIdx_add_lt hp (show subsize Po p C.Co - 1 < subsize Po p C.Co by omega)
    omega
  -- the last of several blocks begins after the first group
  have last : ∀ {P n : Nat}, 2 ≤ P → n / C.groups ≤ startIdx P (P - 1) n := by
    intro P n hP
    have e := startIdx_top (show 0 < P by omega) n
    have e' := startIdx_succ P (P - 1) n
    rw [Nat.sub_add_cancel (by omega), e, stopIdx, subsize] at e'
    have hlt := Nat.mod_lt n (show 0 < P by omega)
    rw [if_neg (by omega)] at e'
    have a1 : n / P ≤ n / 2 := Nat.div_le_div_left hP (by omega)
    have a2 : n / C.groups ≤ n / 2 := Nat.div_le_div_left h2 (by omega)
    omega
  have hne : ∀ c < C.Ci / C.groups, K / (C.Co / C.groups) * (C.Ci / C.groups) + c ≠ J := by
    intro c hc
    by_cases hpi : Pi = 1
    · have hp' : p = Po - 1 := if_pos hpi
      have hPo2 : 2 ≤ Po := by
        by_contra hlt
        apply hm
        rw [hpi, show Po = 1 by omega]
      have hJ0 : J = 0 := by
        show startIdx Pi (Pi - 1) C.Ci = 0
        rw [hpi]
        exact startIdx_zero _ _
      have hKg : C.Co / C.groups ≤ K := by
        show _ ≤ startIdx Po p C.Co
        rw [hp']
        exact last hPo2
      have a1 : 1 ≤ K / (C.Co / C.groups) := Nat.div_pos hKg (Nat.div_pos hgo hg.1)
      have a2 : 0 < C.Ci / C.groups := Nat.div_pos hgi hg.1
      have := Nat.mul_pos a1 a2
      omega
    · have hp' : p = 0 := if_neg hpi
      have hK0 : K = 0 := by
        show startIdx Po p C.Co = 0
        rw [hp']
        exact startIdx_zero _ _
      have : C.Ci / C.groups ≤ J := last (by omega)
      rw [hK0, Nat.zero_div, Nat.zero_mul]
      omega
  let Xt : R → List Nat → R := fun t l => if l.getD 1 0 = J then t else 0
  have hread : ∀ t c κ', c < C.Ci → winRead 0 (B :: C.Ci :: N) (1 :: 1 :: C.W.s) (1 :: 1 :: C.W.d) (0 :: 0 :: C.W.p) (Xt t)
      (0 :: c :: o) (0 :: 0 :: κ') = if c = J ∧ InBoundsI (winPos C.W.s C.W.d C.W.p o κ') N then t else 0 := by
    intro t c κ' hc
    rw [winRead_point _ _ _ _ _ _ _ _ hB, winRead_point _ _ _ _ _ _ _ _ hc]
    show winRead 0 N C.W.s C.W.d C.W.p (fun _ => if c = J then t else 0) o κ' = _
    rw [winRead_const]
    by_cases h3 : c = J
    · simp [h3]
    · simp [h3]
  have hseq : ∀ t Wt' β', torchConv C.W C.groups C.Ci C.Co Wt' β' (B :: C.Ci :: N) (Xt t) (0 :: K :: o) = β' K := by
    intro t Wt' β'
    show β' K + _ = _
    rw [Finset.sum_eq_zero, add_zero]
    intro c hc
    refine Eq.trans (boxSum_congr fun κ' _ => ?_) (boxSum_zero _)
    by_cases hlt : K / (C.Co / C.groups) * (C.Ci / C.groups) + c < C.Ci
    · rw [hread _ _ _ hlt, if_neg fun hh => hne c (Finset.mem_range.1 hc) hh.1, mul_zero]
    · rw [winRead_channel (by show C.Ci ≤ _; omega), mul_zero]
  refine ⟨p, Pi - 1, hp, by omega, hK, fun Wt β hWt hβ Wt' β' => ?_⟩
  have hWt : ∀ κ', InBounds κ' C.W.k → Wt (K :: J :: κ') = if κ' = κ then 1 else 0 := hWt
  have hβ : β [K] = 0 := hβ
  have hdist : ∀ t, torchConv C.W 1 C.Ci C.Co Wt (fun c => if C.useBias then β [c] else 0) (B :: C.Ci :: N) (Xt t)
      (0 :: K :: o) = t := by
    intro t
    show (if C.useBias then β [K] else 0) + _ = _
    rw [hβ, ite_self, zero_add, Nat.div_one, Nat.div_one, Nat.div_eq_of_lt hK, Nat.zero_mul]
    rw [Finset.sum_eq_single_of_mem J (Finset.mem_range.2 hJ)]
    · refine Eq.trans (boxSum_congr (g := fun κ' => if κ' = κ then t else 0) fun κ' hκ' => ?_) (boxSum_pick hκ fun _ => t)
      rw [Nat.zero_add, hread _ _ _ hJ, hWt κ' hκ']
      by_cases he : κ' = κ
      · subst he
        simp [hr]
      · simp [he]
    · intro c hc hcJ
      refine Eq.trans (boxSum_congr fun κ' _ => ?_) (boxSum_zero _)
      rw [Nat.zero_add, hread _ _ _ (Finset.mem_range.1 hc), if_neg fun hh => hcJ hh.1, mul_zero]
  obtain ⟨t, ht⟩ : ∃ t, t ≠ β' K := exists_ne _
  refine ⟨Xt t, fun e => ht ?_⟩
  have e : torchConv C.W C.groups C.Ci C.Co Wt' β' (B :: C.Ci :: N) (Xt t) (0 :: K :: o) =
    torchConv C.W 1 C.Ci C.Co Wt (fun c => if C.useBias then β [c] else 0) (B :: C.Ci :: N) (Xt t) (0 :: K :: o) := e
  rw [hseq, hdist] at e
  exact e.symm

/-- C57 is false of every partition of the channels over more than one worker, for all sizes, kernels and placements:
there are local weights for which no sequential convolution with these groups, whatever its weights and biases, has the
outputs of the layer.  The only condition is that some window reads a cell of the input and not only the padding. -/
theorem C57_wrong [Nontrivial R] (h : ChanValid C Po Pi Sp) (h1 : ∀ n ∈ Sp, n = 1) (hSp : Sp.length = C.W.k.length)
    (hN : N.length = C.W.k.length) (hg : GroupsFit C Po Pi) (h2 : 2 ≤ C.groups)
    (hfit : ∀ j, j < C.W.k.length →
      C.W.d.getD j 0 * (C.W.k.getD j 0 - 1) + 1 ≤ N.getD j 0 + 2 * C.W.p.getD j 0)
    (hB : 0 < B) {o κ : List Nat} (ho : InBounds o (torchOut C.W N)) (hκ : InBounds κ C.W.k)
    (hr : InBoundsI (winPos C.W.s C.W.d C.W.p o κ) N) (hm : C.Pw.members.length ≠ 1) :
    ∃ wt b : Nat → List Nat → R, ∀ (Wt' : List Nat → R) (β' : Nat → R), ∃ X : List Nat → R, ∀ I : Inputs R,
      EvenBlocks C.Px (B :: C.Ci :: N) dt X I.x → (∀ u, C.Active u → (I.x u).shape ≠ []) →
      ∀ (rg : Nat → Bool) (out : Nat → Tensor R), (∀ u ∈ C.Py.members, channelForward C wt b I rg u = some (out u)) →
        ¬ EvenBlocks C.Py (torchConvShape C.W C.Co (B :: C.Ci :: N)) dt
          (torchConv C.W C.groups C.Ci C.Co Wt' β' (B :: C.Ci :: N) X) out := by
  classical
  obtain ⟨hPo, hPi, hSpos⟩ := h.pos
  have hm' : Po * Pi ≠ 1 := by
    intro e
    apply hm
    rw [h.wfw.size, h.shw, List.prod_cons, List.prod_cons, ← Nat.mul_assoc, e, Nat.one_mul]
    exact List.prod_eq_one h1
  obtain ⟨p, j, hp, hj, hK, key⟩ := grouped_differs (R := R) (B := B) h hg h2 hB hκ hr hm'
  have hz : InBounds (List.replicate Sp.length 0) Sp := by
    refine inBounds_iff.2 ⟨by simp, fun j hj => ?_⟩
    rw [List.getD_eq_getElem _ _ (by simpa using hj), List.getD_eq_getElem _ _ hj, List.getElem_replicate]
    exact hSpos _ (List.getElem_mem hj)
  obtain ⟨v, hv, ev⟩ := h.wfw.exists_coord (i := p :: j :: List.replicate Sp.length 0) (by rw [h.shw]; exact ⟨hp, hj, hz⟩)
  obtain ⟨v0, hv0, ev0⟩ := h.wfw.exists_coord (i := p :: 0 :: List.replicate Sp.length 0) (by
    rw [h.shw]; exact ⟨hp, hPi, hz⟩)
  have hsi : 0 < subsize Pi j C.Ci := subsize_pos hPi h.channels.1
  have hso : 0 < subsize Po p C.Co := subsize_pos hPo h.channels.2
  let wt : Nat → List Nat → R := fun _ l => if l.drop 2 = κ then 1 else 0
  obtain ⟨Wt, β, hW⟩ := grouped_exists (Po := Po) (Pi := Pi) h h1 wt fun _ _ => 0
  refine ⟨wt, fun _ _ => 0, fun Wt' β' => ?_⟩
  obtain ⟨X, hX⟩ := key Wt β (by
    intro κ' hκ'
    have := hW.weight v hv 0 (by rw [ev]; exact hso) 0 (by rw [ev]; exact hsi) κ' hκ'
    rw [ev, Nat.zero_div, Nat.zero_div, if_pos rfl] at this
    exact this) (by
    have := hW.bias v0 hv0 (by rw [ev0]; rfl) 0 (by rw [ev0]; exact hso)
    rw [ev0] at this
    exact this) Wt' β'
  refine ⟨X, fun I hx hs rg out hout hev => hX ?_⟩
  obtain ⟨out', ho', hev'⟩ := C57_computes (rg := rg) h h1 hSp hN hg hfit hx hW hs hm
  exact hev.agree h.wfy (by rw [h.shy]; simp [torchConvShape, length_torchOut, hSp, hN]) hev'
    (fun u hu => Option.some.inj ((hout u hu).symm.trans (ho' u hu))) ⟨hB, hK, ho⟩

/-- `grC`: two groups, four channels, input channels over two workers. -/
example : ∃ wt b : Nat → List Nat → ℤ, ∀ (Wt' : List Nat → ℤ) (β' : Nat → ℤ), ∃ X : List Nat → ℤ, ∀ I : Inputs ℤ,
    EvenBlocks grC.Px [1, 4, 1] .float64 X I.x → (∀ u, grC.Active u → (I.x u).shape ≠ []) →
    ∀ (rg : Nat → Bool) (out : Nat → Tensor ℤ), (∀ u ∈ grC.Py.members, channelForward grC wt b I rg u = some (out u)) →
      ¬ EvenBlocks grC.Py [1, 4, 1] .float64 (torchConv grC.W 2 4 4 Wt' β' [1, 4, 1] X) out :=
  C57_wrong (C := grC) (Po := 1) (Pi := 2) (Sp := [1]) (N := [1]) (o := [0]) (κ := [0])
    ⟨⟨by decide, by decide, by decide⟩, ⟨by decide, by decide, by decide⟩, ⟨by decide, by decide, by decide⟩,
      rfl, rfl, rfl, ⟨_, rfl, rfl, rfl⟩, by decide⟩ (by decide) rfl rfl ⟨by decide, by decide⟩ (by decide) (by decide)
    (by decide) (by decide) (by decide) (by decide) (by decide)

/-- Three groups do not divide two channels per worker: an exception, whatever the parameters and the input. -/
example (wt b : Nat → List Nat → ℤ) (I : Inputs ℤ) (rg : Nat → Bool) :
    channelForward { grC with groups := 3 } wt b I rg 0 = none :=
  C57_raises (Po := 1) (Pi := 2) (Sp := [1])
    ⟨⟨by decide, by decide, by decide⟩, ⟨by decide, by decide, by decide⟩, ⟨by decide, by decide, by decide⟩,
      rfl, rfl, rfl, ⟨_, rfl, rfl, rfl⟩, by decide⟩ (by decide) (by decide)
    (fun hh => absurd (hh.2 0 (by decide)).1 (by decide)) (.inl (by decide))

end

end Verif
