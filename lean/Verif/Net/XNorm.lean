import Verif.Net.XMods

/-!
# What the modules of a batch norm keep

`sr`, `bc` and `bc_affine` see tensors of one structure in all their calls, in training mode and in evaluation mode.
-/

namespace Verif.Net

variable {F β : Type}

section
variable [AddCommMonoid F] {W : List Nat} {c : Nat} {ℓ : Lens (NSt F) (Tensor F × Bool)} {S : Nat → NSt F} {L : PairLayer}

/-- What a broadcast or a sum-reduction keeps: `i u` is the structure of the input of worker `u`, `src u` that of the tensor it
receives. -/
def pairMem (L : PairLayer) (parts : Nat → Res SendRecv) (i src : Nat → Info) (u : Nat) : Option Mem :=
  if L.active u then some ⟨i u, fun _ => noInfo, if receives L.identity parts u = .str then src u else noInfo, false⟩ else none

theorem mem_active {u : Nat} : L.active u = true ↔ u ∈ L.Px.members ∨ u ∈ L.Py.members := by
  unfold PairLayer.active
  rw [decide_eq_true_iff, mem_groupUnion]

theorem receives_str {identity : Bool} {parts : Nat → Res SendRecv} {u : Nat} (h : receives identity parts u = .str) :
    identity = false ∧ ∃ g, recvOf (parts u) = some g := by
  unfold receives at h
  split at h
  · cases h
  · next hi =>
    split at h
    · next hr => exact ⟨by simpa using hi, Option.isSome_iff_exists.1 hr⟩
    · cases h

theorem receives_info (identity : Bool) (parts : Nat → Res SendRecv) (u : Nat) : receives identity parts u ≠ .info := by
  unfold receives
  split
  · simp
  · split <;> simp

omit [AddCommMonoid F] in
theorem keepOf_pair {L : PairLayer} {parts : Nat → Res SendRecv} {u : Nat} {i src : Info} {x : NSt F} (he : x.err = false)
    (hs : receives L.identity parts u = .str → x.str = src) :
    keepOf (receives L.identity parts u) i x =
      ⟨i, fun _ => noInfo, if receives L.identity parts u = .str then src else noInfo, false⟩ := by
  unfold keepOf
  rw [if_neg (receives_info _ _ _), he]
  split
  · next h => rw [hs h]
  · rfl

theorem bcastMod_mem (h : BcastLayer L) (hx : ∀ w ∈ L.Px.members, w ∈ W) (hy : ∀ w ∈ L.Py.members, w ∈ W)
    (he : ∀ w ∈ W, (S w).err = false) {i : Nat → Info} (hi : ∀ u, L.active u = true → infoOf ℓ (S u) = i u) :
    memOf (bcastMod c L ℓ) S = pairMem L L.bparts i fun u => i (L.broot u) := by
  funext u
  unfold memOf pairMem
  show (if L.active u = true then some (keepOf (receives L.identity L.bparts u) (infoOf ℓ (S u)) (run ((bcastProg c L ℓ).take 2) S u))
    else none) = _
  split
  · next ha =>
    have hu : u ∈ W := (mem_active.1 ha).elim (hx u) (hy u)
    rw [hi u ha]
    congr 1
    rcases Bool.eq_false_or_eq_true L.identity with hid | hid
    · have e : (bcastProg c L ℓ).take 2 = [] := by rw [bcastProg, hid]; rfl
      rw [e]
      exact keepOf_pair (he u hu) fun h => by
        have := (receives_str h).1
        rw [hid] at this
        cases this
    · have e : (bcastProg c L ℓ).take 2 = [createPhase c L, structPhase c (fun w => sendOf (L.bparts w)) (fun w => recvOf (L.bparts w)) ℓ] := by
        rw [bcastProg, hid]
        rfl
      obtain ⟨-, r1⟩ := create_run (c := c) (S := S) hx hy
      have st : Star L.Px.members L.Py.members L.broot _ (fun w => sendOf (L.bparts w))
          fun w => recvOf (L.bparts w) := bcast_star h.valid
      obtain ⟨-, r2⟩ := struct_copy (c := c) (ℓ := ℓ) (S := sync (createPhase c L) S) st hx hy
      rw [e]
      show keepOf _ _ (sync (structPhase c _ _ ℓ) (sync (createPhase c L) S) u) = _
      rw [r2 u hu, r1 u hu]
      refine keepOf_pair (by split <;> exact he u hu) fun hs => ?_
      obtain ⟨-, g, hg⟩ := receives_str hs
      have hm : u ∈ L.Py.members := by
        by_contra hm
        rw [st.bEq u, if_neg hm] at hg
        cases hg
      rw [if_pos hm]
      show infoOf ℓ (sync (createPhase c L) S (L.broot u)) = _
      rw [r1 _ (hx _ (h.root_mem hm)), hi _ (mem_active.2 (.inl (h.root_mem hm)))]
  · rfl

theorem reduceMod_mem (h : ReduceLayer L) (hx : ∀ w ∈ L.Px.members, w ∈ W) (hy : ∀ w ∈ L.Py.members, w ∈ W)
    (he : ∀ w ∈ W, (S w).err = false) {i k : Nat → Info} (hi : ∀ u, L.active u = true → infoOf ℓ (S u) = i u)
    (hk : ∀ v ∈ L.Px.members, i v = k (L.rroot v)) :
    memOf (reduceMod c L ℓ) S = pairMem L L.rparts i k := by
  funext u
  unfold memOf pairMem
  show (if L.active u = true then some (keepOf (receives L.identity L.rparts u) (infoOf ℓ (S u)) (run ((reduceProg c L ℓ).take 2) S u))
    else none) = _
  split
  · next ha =>
    have hu : u ∈ W := (mem_active.1 ha).elim (hx u) (hy u)
    rw [hi u ha]
    congr 1
    rcases Bool.eq_false_or_eq_true L.identity with hid | hid
    · have e : (reduceProg c L ℓ).take 2 = [] := by rw [reduceProg, hid]; rfl
      rw [e]
      exact keepOf_pair (he u hu) fun h => by
        have := (receives_str h).1
        rw [hid] at this
        cases this
    · have e : (reduceProg c L ℓ).take 2 = [createPhase c L, structPhase c (fun w => sendOf (L.rparts w)) (fun w => recvOf (L.rparts w)) ℓ] := by
        rw [reduceProg, hid]
        rfl
      obtain ⟨-, r1⟩ := create_run (c := c) (S := S) hx hy
      have st : Star L.Py.members L.Px.members L.rroot _ (fun w => recvOf (L.rparts w))
          fun w => sendOf (L.rparts w) := reduce_star h.valid
      obtain ⟨-, r2⟩ := struct_sum (c := c) (ℓ := ℓ) (S := sync (createPhase c L) S) st hy hx (i := k)
        (fun v hv => by rw [r1 v (hx v hv), hi v (mem_active.2 (.inl hv)), hk v hv]) fun r hr => ronto h.valid hr
      rw [e]
      show keepOf _ _ (sync (structPhase c _ _ ℓ) (sync (createPhase c L) S) u) = _
      rw [r2 u hu, r1 u hu]
      refine keepOf_pair (by split <;> exact he u hu) fun hs => ?_
      obtain ⟨-, g, hg⟩ := receives_str hs
      have hm : u ∈ L.Py.members := by
        by_contra hm
        rw [st.aEq u, if_neg hm] at hg
        cases hg
      rw [if_pos hm]
  · rfl

/-- The structure of what a worker holds that has no part in the receiving side. -/
def voidInfo (pb : Bool) (s : List Nat) : Info := if pb then ([s.headD 0, 0], .float32, false) else ([0], .float32, false)

theorem reduceMod_void (h : ReduceLayer L) (hx : ∀ w ∈ L.Px.members, w ∈ W) (hy : ∀ w ∈ L.Py.members, w ∈ W)
    {k : Nat → Info} (hk : ∀ v ∈ L.Px.members, infoOf ℓ (S v) = k (L.rroot v)) {w : Nat} (hw : w ∈ L.Px.members)
    (hn : w ∉ L.Py.members) (hs : (ℓ.get (S w)).1.shape ≠ []) :
    infoOf ℓ (run (reduceProg c L ℓ) S w) = voidInfo L.preserveBatch (ℓ.get (S w)).1.shape := by
  unfold reduceProg
  cases hid : L.identity with
  | true => exact absurd (h.same (PairLayer.identity_iff.1 hid).1 ▸ hw) hn
  | false =>
    rw [if_neg (by simp)]
    have st : Star L.Py.members L.Px.members L.rroot _ (fun w => recvOf (L.rparts w))
        fun w => sendOf (L.rparts w) := reduce_star h.valid
    obtain ⟨-, r1⟩ := create_run (c := c) (S := S) hx hy
    obtain ⟨-, r2⟩ := struct_sum (c := c) (ℓ := ℓ) (S := sync (createPhase c L) S) st hy hx (i := k)
      (fun v hv => by rw [r1 v (hx v hv), hk v hv]) fun r hr => ronto h.valid hr
    generalize hS2 : sync (structPhase c (fun w => sendOf (L.rparts w)) (fun w => recvOf (L.rparts w)) ℓ) (sync (createPhase c L) S) = S2 at r2
    have e2 : S2 w = S w := by rw [r2 w (hx w hw), if_neg hn, r1 w (hx w hw)]
    have hp := (star_paired (W := W) st hy hx
      (da := fun w g => if g.head? = some w then g else []) (db := fun w g => if g.head? = some w then g else [])
      (fun w g u h => by split at h <;> simp_all) fun w g u h => by split at h <;> simp_all).symm
    have ha : recvOf (L.rparts w) = none := by rw [st.aEq w, if_neg hn]
    have hb := (star_b st).2 ⟨hw, rfl⟩
    have hhead : (grp (groupUnion L.Px.members L.Py.members) (colS L.Py L.Px L.td L.ts) (colD L.Py L.Px L.td L.ts) (L.rroot w)).head? ≠ some w := by
      intro hh
      have h1 : (grp _ _ _ (L.rroot w)).head? = some (L.rroot w) := st.headG _
      rw [h1] at hh
      exact hn (Option.some.inj hh ▸ h.root_mem hw)
    show infoOf ℓ (sync (sumPhase c _ _ _ ℓ _ _) (sync (structPhase c _ _ ℓ) (sync (createPhase c L) S)) w) = _
    rw [hS2]
    have e3 : sync (sumPhase c (fun w => sendOf (L.rparts w)) (fun w => recvOf (L.rparts w)) L.preserveBatch ℓ (fun _ x => infoOf ℓ x)
        fun _ x => x.str) S2 w = blank L.preserveBatch ℓ (S2 w) := by
      refine (pairPhase_sync_a hp (hx w hw) hb (Or.inl ha)).trans ?_
      rw [if_neg hhead]
      show (if (recvOf (L.rparts w)).isSome || (sendOf (L.rparts w)).isNone then S2 w else _) = _
      rw [hb, ha]
      rfl
    rw [e3, e2, blank, zeroVolume]
    cases hsh : (ℓ.get (S w)).1.shape with
    | nil => exact absurd hsh hs
    | cons n r =>
      cases L.preserveBatch <;> simp [voidInfo, infoOf, ℓ.get_set]

end

/-! ## Batch norm -/

theorem canon_append {σ : Nat → Nat} {K : Nat → Nat → Option Mem} (ms ms' : List (Mod F)) : ∀ (k : Nat) (S : Nat → NSt F),
    Canon σ K k (ms ++ ms') S ↔
      Canon σ K k ms S ∧ Canon σ K (k + ms.length) ms' (run (ms.map Mod.prog).flatten S) := by
  induction ms with
  | nil => exact fun k S => ⟨fun h => ⟨trivial, h⟩, fun h => h.2⟩
  | cons m ms ih =>
    intro k S
    rw [List.map_cons, List.flatten_cons, run_append, List.length_cons, show k + (ms.length + 1) = k + 1 + ms.length by omega]
    show _ ∧ Canon σ K (k + 1) (ms ++ ms') _ ↔ (_ ∧ Canon σ K (k + 1) ms _) ∧ _
    rw [ih, and_assoc]

theorem plain_mem (p : Prog (NSt F) (NMsg F)) (S : Nat → NSt F) : memOf (plainMod p) S = fun _ => none := rfl

/-- The structure of the local sums. -/
def sumInfo (M : BatchNorm F) (L : Layout) (t : TorchDtype) (ρ : Bool) (u : Nat) : Info :=
  (channelShape M.P.shape.length (chCount M.P L u), t, ρ)

/-- The structure of the averages before the broadcast. -/
def avgInfo (M : BatchNorm F) (L : Layout) (t : TorchDtype) (ρ : Bool) (u : Nat) : Info :=
  if u ∈ M.Psum.members then sumInfo M L t ρ u else voidInfo M.sr.preserveBatch (sumInfo M L t ρ u).1

/-- What the modules of a batch norm keep; `κ u` is the structure of the parameters of worker `u`. -/
def normKeeps (M : BatchNorm F) (L : Layout) (t : TorchDtype) (ρ : Bool) (κ : Nat → Info) : Nat → Nat → Option Mem
  | 0 => pairMem M.sr M.sr.rparts (sumInfo M L t ρ) (sumInfo M L t ρ)
  | 1 => pairMem M.bc M.bc.bparts (avgInfo M L t ρ) fun u => avgInfo M L t ρ (M.bc.broot u)
  | 2 => if M.affine then pairMem M.bc M.bc.bparts κ fun u => κ (M.bc.broot u) else fun _ => none
  | _ => fun _ => none

section
variable [Field F] {W : List Nat} {M : BatchNorm F} {L : Layout} {S : Nat → NSt F} {x : Nat → Tensor F} {X : Tensor F}

omit [Field F] in
theorem sr_active (h : BNMade M.P L M) {u : Nat} : M.sr.active u = true ↔ u ∈ M.P.members :=
  mem_active.trans ⟨fun e => e.elim id (h.sum.sub u), .inl⟩

omit [Field F] in
theorem bc_active (h : BNMade M.P L M) {u : Nat} : M.bc.active u = true ↔ u ∈ M.P.members :=
  mem_active.trans ⟨fun e => e.elim (h.sum.sub u) id, .inr⟩

/-- One average. -/
theorem stat_canon (cs cb i : Nat) (h : BNMade M.P L M) (hx : Blocks M.P L X x) (hW : ∀ w ∈ M.P.members, w ∈ W) {V : Int}
    {ρ : Bool} (hs : ∀ v ∈ M.P.members, (S v).par i = (localSums M.P.shape.length (x v), ρ))
    (hV : ∀ v ∈ M.P.members, normVolume M (S v).info v = some V) (he : ∀ w ∈ W, (S w).err = false)
    {σ : Nat → Nat} {K : Nat → Nat → Option Mem} {k : Nat} {κ : Nat → Info}
    (hK : K = normKeeps M L X.dtype ρ κ) (h0 : σ k = 0) (h1 : σ (k + 1) = 3) (h2 : σ (k + 2) = 1) :
    Canon σ K k [reduceMod cs M.sr (parLens i), plainMod [normDivPhase M i], bcastMod cb M.bc (parLens i)] S := by
  subst hK
  have hsub := h.sum.sub
  have hgs : ∀ v ∈ M.P.members, (parLens i).get (S v) = (localSums M.P.shape.length (x v), ρ) := hs
  have hinf : ∀ v ∈ M.P.members, infoOf (parLens i) (S v) = sumInfo M L X.dtype ρ v := by
    intro v hv
    unfold infoOf
    rw [hgs v hv, (h.sums hx hv).1, (h.sums hx hv).2]
    rfl
  have hcol : ∀ v ∈ M.P.members, sumInfo M L X.dtype ρ v = sumInfo M L X.dtype ρ (M.sr.rroot v) := by
    intro v hv
    have hr := h.srLayer.root_mem (v := v) hv
    have := (ch_congr h.placed h.two ((h.collects hr hv).1 ((h.srLayer.rel hr hv).2 rfl))).1
    unfold sumInfo
    rw [this]
  have hb1 : HasBatch M.sr fun w => ((parLens i).get (S w)).1 := by
    intro _ u hu
    have hu' : u ∈ M.P.members := hu.elim id fun h => hsub u h
    show ((parLens i).get (S u)).1.shape ≠ []
    rw [hgs u hu', (h.sums hx hu').2]
    exact channelShape_ne h.two
  have hsum : ∀ r ∈ M.Psum.members, r ∈ W := fun r hr => hW r (hsub r hr)
  obtain ⟨o1, Y1, s1, r1, y1, -, -⟩ := reduce_run (S := S) (ℓ := parLens i) cs h.srLayer hW hsum
    (slot_par i) hb1 (i := sumInfo M L X.dtype ρ) (fun v hv => (hinf v hv).trans (hcol v hv))
  obtain ⟨S1, hS1⟩ : ∃ S1, S1 = run (reduceProg cs M.sr (parLens i)) S := ⟨_, rfl⟩
  have hvoid : ∀ v ∈ M.P.members, v ∉ M.Psum.members → infoOf (parLens i) (S1 v) = avgInfo M L X.dtype ρ v := by
    intro v hv hn
    rw [hS1, reduceMod_void (c := cs) (ℓ := parLens i) h.srLayer hW hsum (fun v hv => (hinf v hv).trans (hcol v hv)) hv hn
      (hb1 rfl v (.inl hv)), avgInfo, if_neg hn, hgs v hv, (h.sums hx hv).2]
    rfl
  rw [← hS1] at r1
  have hget : ∀ v ∈ M.P.members, (parLens i).get (S1 v) = Y1 v := by
    intro v hv
    rw [r1 v (hW v hv)]
    exact (parLens i).get_set (Y1 v) (S v)
  have hS1i : ∀ v ∈ M.P.members, infoOf (parLens i) (S1 v) = avgInfo M L X.dtype ρ v := by
    intro v hv
    by_cases hn : v ∈ M.Psum.members
    · unfold infoOf
      rw [hget v hv, y1 v hn, avgInfo, if_pos hn]
    · exact hvoid v hv hn
  obtain ⟨S2, hS2⟩ : ∃ S2, S2 = sync (normDivPhase M i) S1 := ⟨_, rfl⟩
  have r2 : ∀ v ∈ M.P.members, S2 v = (parLens i).set (⟨((S1 v).par i).1.shape, ((S1 v).par i).1.dtype,
      fun j => ((S1 v).par i).1.val j / (V : F)⟩, ((S1 v).par i).2) (S1 v) := by
    intro v hv
    rw [hS2, divPhase_sync i S1 hv (V := V) (by rw [r1 v (hW v hv)]; exact hV v hv)]
  have he2 : ∀ w ∈ W, (S2 w).err = false := by
    intro w hw
    have e1 : (S1 w).err = false := by
      rw [r1 w hw]
      exact he w hw
    by_cases hm : w ∈ M.P.members
    · rw [r2 w hm]
      exact e1
    · rw [hS2, divPhase_other i S1 hm]
      exact e1
  have hS2i : ∀ v ∈ M.P.members, infoOf (parLens i) (S2 v) = avgInfo M L X.dtype ρ v := by
    intro v hv
    rw [← hS1i v hv]
    unfold infoOf
    rw [r2 v hv, (parLens i).get_set]
    rfl
  refine ⟨?_, ?_, ?_, trivial⟩
  · rw [h0]
    exact reduceMod_mem h.srLayer hW hsum he (fun u hu => hinf u ((sr_active h).1 hu)) hcol
  · rw [h1]
    rfl
  · show memOf _ (run (plainMod _).prog (run (reduceMod cs M.sr (parLens i)).prog S)) = _
    rw [reduceMod_prog, ← hS1, plainMod_prog]
    show memOf _ (sync (normDivPhase M i) S1) = _
    rw [← hS2, show k + 1 + 1 = k + 2 from rfl, h2]
    exact bcastMod_mem h.bcLayer hsum hW he2 fun u hu => hS2i u ((bc_active h).1 hu)

/-- Mean and variance. -/
theorem both_canon (cs cb : Nat) (h : BNMade M.P L M) (hx : Blocks M.P L X x) (hxs : ∀ v ∈ M.P.members, (S v).t = x v)
    (hW : ∀ w ∈ M.P.members, w ∈ W) {ρ : Bool} (hr : ∀ v ∈ M.P.members, (S v).rg = ρ)
    (hV : ∀ v ∈ M.P.members, normVolume M (S v).info v = some ((channelVolume X : Nat) : Int)) (he : ∀ w ∈ W, (S w).err = false)
    {σ : Nat → Nat} {K : Nat → Nat → Option Mem} {κ : Nat → Info} (hK : K = normKeeps M L X.dtype ρ κ)
    (hσ : σ 1 = 3 ∧ σ 2 = 0 ∧ σ 3 = 3 ∧ σ 4 = 1 ∧ σ 5 = 3 ∧ σ 6 = 0 ∧ σ 7 = 3 ∧ σ 8 = 1) :
    Canon σ K 1 [plainMod [normSumsPhase M], reduceMod cs M.sr (parLens 2), plainMod [normDivPhase M 2],
      bcastMod cb M.bc (parLens 2), plainMod [normSquaresPhase M], reduceMod cs M.sr (parLens 3),
      plainMod [normDivPhase M 3], bcastMod cb M.bc (parLens 3)] S := by
  obtain ⟨q1, q2, q3, q4, q5, q6, q7, q8⟩ := hσ
  obtain ⟨d1, d2, d3⟩ := dev_blocks (rg := fun _ => ρ) h hx
  -- sums of the input
  obtain ⟨B1, hB1⟩ : ∃ B1, B1 = sync (normSumsPhase M) S := ⟨_, rfl⟩
  have r1 : ∀ v, B1 v = if v ∈ M.P.members then (parLens 2).set (localSums M.P.shape.length (S v).t, (S v).rg) (S v) else S v :=
    fun v => by rw [hB1]; rfl
  have f1 : ∀ v, (B1 v).t = (S v).t ∧ (B1 v).rg = (S v).rg ∧ (B1 v).err = (S v).err ∧ (B1 v).info = (S v).info := by
    intro v
    rw [r1]
    split <;> exact ⟨rfl, rfl, rfl, rfl⟩
  have p1 : ∀ v ∈ M.P.members, (B1 v).par 2 = (localSums M.P.shape.length (x v), ρ) := by
    intro v hv
    rw [r1, if_pos hv, hr v hv, hxs v hv]
    exact (parLens 2).get_set (localSums M.P.shape.length (x v), ρ) (S v)
  -- the mean
  have v1 : ∀ v ∈ M.P.members, normVolume M (B1 v).info v = some ((channelVolume X : Nat) : Int) := fun v hv => by
    rw [(f1 v).2.2.2]
    exact hV v hv
  obtain ⟨o4, Y4, s4, r4, y4, -⟩ := stat_run (S := B1) (rg := fun _ => ρ) cs cb 2 h hx hW (ρ := ρ) p1 v1
  have c4 := stat_canon (S := B1) cs cb 2 h hx hW (ρ := ρ) p1 v1 (fun w hw => (f1 w).2.2.1.trans (he w hw)) hK (k := 2) q2 q3 q4
  obtain ⟨B4, hB4⟩ : ∃ B4, B4 = run (statCuts cs cb M 2).flatten B1 := ⟨_, rfl⟩
  rw [← hB4] at r4
  have f4 : ∀ v ∈ W, (B4 v).t = (S v).t ∧ (B4 v).rg = (S v).rg ∧ (B4 v).err = (S v).err ∧ (B4 v).info = (S v).info := by
    intro v hv
    rw [r4 v hv]
    exact f1 v
  have p4 : ∀ v ∈ M.P.members, (B4 v).par 2 = Y4 v := by
    intro v hv
    rw [r4 v (hW v hv)]
    exact (parLens 2).get_set _ _
  -- sums of the squares
  obtain ⟨B5, hB5⟩ : ∃ B5, B5 = sync (normSquaresPhase M) B4 := ⟨_, rfl⟩
  have r5 : ∀ v ∈ M.P.members, B5 v = (parLens 3).set (localSums M.P.shape.length
      (devOf M (channelVolume X : Nat) x (fun _ => ρ) v), ρ) (B4 v) := by
    intro v hv
    obtain ⟨m, e1, -, e2⟩ := d1 v hv
    have em : m = (Y4 v).1 := Option.some.inj (e1.symm.trans (y4 v hv).1)
    rw [hB5]
    show (if v ∈ M.P.members then _ else _) = _
    rw [if_pos hv, p4 v hv, (f4 v (hW v hv)).1, hxs v hv, ← em, e2, (f4 v (hW v hv)).2.1, hr v hv, (y4 v hv).2, Bool.or_self]
  have r5' : ∀ v, v ∉ M.P.members → B5 v = B4 v := fun v hv => by
    rw [hB5]
    exact if_neg hv
  have e5 : ∀ v ∈ W, (B5 v).err = false := by
    intro v hv
    by_cases hm : v ∈ M.P.members
    · rw [r5 v hm]
      exact (f4 v hv).2.2.1.trans (he v hv)
    · rw [r5' v hm]
      exact (f4 v hv).2.2.1.trans (he v hv)
  have v5 : ∀ v ∈ M.P.members, normVolume M (B5 v).info v = some ((channelVolume X : Nat) : Int) := fun v hv => by
    rw [r5 v hv]
    show normVolume M (B4 v).info v = _
    rw [(f4 v (hW v hv)).2.2.2]
    exact hV v hv
  have p5 : ∀ v ∈ M.P.members, (B5 v).par 3 = (localSums M.P.shape.length
      (devOf M (channelVolume X : Nat) x (fun _ => ρ) v), ρ) := by
    intro v hv
    rw [r5 v hv]
    exact (parLens 3).get_set (localSums M.P.shape.length (devOf M (channelVolume X : Nat) x (fun _ => ρ) v), ρ) (B4 v)
  -- the variance
  have c8 := stat_canon (S := B5) cs cb 3 h d2 hW (ρ := ρ) p5 v5 e5 hK (k := 6) q6 q7 q8
  have e1 : run (plainMod [normSumsPhase M]).prog S = B1 := by rw [plainMod_prog, hB1]; rfl
  have hp : ([reduceMod cs M.sr (parLens 2), plainMod [normDivPhase M 2], bcastMod cb M.bc (parLens 2)].map Mod.prog) =
      statCuts cs cb M 2 := by
    simp [statCuts, plainMod_prog, bcastMod_prog, reduceMod_prog]
  subst hK
  refine ⟨by rw [q1]; rfl, ?_⟩
  rw [e1]
  refine (canon_append [reduceMod cs M.sr (parLens 2), plainMod [normDivPhase M 2], bcastMod cb M.bc (parLens 2)]
    [plainMod [normSquaresPhase M], reduceMod cs M.sr (parLens 3), plainMod [normDivPhase M 3], bcastMod cb M.bc (parLens 3)] 2 B1).2
    ⟨c4, ?_⟩
  rw [hp, ← hB4]
  refine ⟨by show _ = normKeeps M L X.dtype ρ κ (σ 5); rw [q5]; rfl, ?_⟩
  have e5 : run (plainMod [normSquaresPhase M]).prog B4 = B5 := by rw [plainMod_prog, hB5]; rfl
  rw [e5]
  exact c8

variable {N : NormLayer F} {t : TorchDtype} {Z : List Nat → F}

/-- The modules of a batch norm see tensors of one structure in all calls. -/
theorem norm_canon (c cs cb ca : Nat) {sq : SeqState F} {gamma beta : Nat → F} (hok : NormOK N L t sq gamma beta)
    (hL : L.pshape = N.M.P.shape) (hW : ∀ w ∈ N.M.P.members, w ∈ W) (h : Holds W N.M.P L t Z S) {ρ : Bool}
    (hr : ∀ v ∈ N.M.P.members, (S v).rg = ρ) {κ : Nat → Info}
    (hg : N.M.affine = true → ∀ v ∈ N.M.P.members, ((N.g v).shape, (N.g v).dtype, N.rgp) = κ v ∧
      ((N.b v).shape, (N.b v).dtype, N.rgp) = κ v) :
    Canon (fun k => (normSlots N.batch).getD k 3) (normKeeps N.M L t ρ κ) 0 (normMods c cs cb ca N) S := by
  have hm := hok.made.made hL
  have hx : Blocks N.M.P L (⟨L.global, t, Z⟩ : Tensor F) fun w => (S w).t := h.normBlocks
  obtain ⟨o1, f1, v1⟩ := normSetup_run c hok hL hW h
  obtain ⟨A1, hA1⟩ : ∃ A1, A1 = run (joinProg c N.M.P (List.range N.M.P.shape.length) ++ [normCheckPhase N.M]) S := ⟨_, rfl⟩
  rw [← hA1] at f1 v1
  have eA1 : ∀ w ∈ W, (A1 w).err = false := fun w hw => (f1 w hw).2.2.1.trans (h.calm w hw)
  -- the parameters
  have tail : ∀ (k : Nat) (σ : Nat → Nat) (A : Nat → NSt F), (∀ w ∈ W, (A w).err = false) → σ k = 3 → σ (k + 1) = 2 → σ (k + 2) = 2 →
      σ (k + 3) = 3 → Canon σ (normKeeps N.M L t ρ κ) k
      [plainMod [normLoadPhase N], if N.M.affine then bcastMod ca N.M.bc (parLens 0) else plainMod [],
        if N.M.affine then bcastMod ca N.M.bc (parLens 1) else plainMod [], plainMod [normApplyPhase N]] A := by
    intro k σ A he q0 q1 q2 q3
    have hpl : run (plainMod [normLoadPhase N]).prog A = sync (normLoadPhase N) A := by rw [plainMod_prog]; rfl
    obtain ⟨A10, hA10⟩ : ∃ A10, A10 = sync (normLoadPhase N) A := ⟨_, rfl⟩
    have r10 : ∀ v, A10 v = if v ∈ N.M.P.members then
        { A v with
          par := fun j =>
            if j = 0 ∧ N.M.affine then (N.g v, N.rgp)
          else if j = 1 ∧ N.M.affine then (N.b v, N.rgp)
          else if j = 2 ∧ N.batch = false then ((N.st v).mean, false)
          else if j = 3 ∧ N.batch = false then ((N.st v).var, false)
          else (A v).par j } else A v := fun v => by rw [hA10]; rfl
    have he10 : ∀ w ∈ W, (A10 w).err = false := by
      intro w hw
      rw [r10]
      split <;> exact he w hw
    refine ⟨by rw [q0]; rfl, ?_⟩
    rw [hpl, ← hA10]
    cases ha : N.M.affine with
    | false =>
      refine ⟨?_, ?_, ?_, trivial⟩
      · rw [q1, normKeeps, ha]
        rfl
      · show _ = normKeeps N.M L t ρ κ (σ (k + 2))
        rw [q2, normKeeps, ha]
        rfl
      · show _ = normKeeps N.M L t ρ κ (σ (k + 3))
        rw [q3]
        rfl
    | true =>
      have hsum : ∀ r ∈ N.M.Psum.members, r ∈ W := fun r hr => hW r (hm.sum.sub r hr)
      have e0 : ∀ v ∈ N.M.P.members, (A10 v).par 0 = (N.g v, N.rgp) := fun v hv => by rw [r10, if_pos hv]; simp [ha]
      obtain ⟨-, Y1, s1, a2, -, -⟩ := normParam_run (S := A10) (rg := fun w => (S w).rg) ca 0 hm hW (hok.gamma ha) (ρ := N.rgp) e0
      obtain ⟨A11, hA11⟩ : ∃ A11, A11 = run (bcastProg ca N.M.bc (parLens 0)) A10 := ⟨_, rfl⟩
      rw [← hA11] at a2
      have e1 : ∀ v ∈ N.M.P.members, (A11 v).par 1 = (N.b v, N.rgp) := by
        intro v hv
        rw [a2 v (hW v hv)]
        show (A10 v).par 1 = _
        rw [r10, if_pos hv]
        simp [ha]
      have he11 : ∀ w ∈ W, (A11 w).err = false := by
        intro w hw
        rw [a2 w hw]
        exact he10 w hw
      have hK : normKeeps N.M L t ρ κ 2 = pairMem N.M.bc N.M.bc.bparts κ fun u => κ (N.M.bc.broot u) := by
        rw [normKeeps, if_pos ha]
      simp only [if_true]
      refine ⟨?_, ?_, ?_, trivial⟩
      · rw [q1, hK]
        refine bcastMod_mem hm.bcLayer hsum hW he10 fun u hu => ?_
        rw [← (hg ha u ((bc_active hm).1 hu)).1]
        unfold infoOf
        have e : (parLens 0).get (A10 u) = _ := e0 u ((bc_active hm).1 hu)
        rw [e]
      · rw [bcastMod_prog, ← hA11]
        show _ = normKeeps N.M L t ρ κ (σ (k + 2))
        rw [q2, hK]
        refine bcastMod_mem hm.bcLayer hsum hW he11 fun u hu => ?_
        rw [← (hg ha u ((bc_active hm).1 hu)).2]
        unfold infoOf
        have e : (parLens 1).get (A11 u) = _ := e1 u ((bc_active hm).1 hu)
        rw [e]
      · show _ = normKeeps N.M L t ρ κ (σ (k + 3))
        rw [q3]
        rfl
  have hp1 : run (plainMod (joinProg c N.M.P (List.range N.M.P.shape.length) ++ [normCheckPhase N.M])).prog S = A1 := by
    rw [plainMod_prog, hA1]
  unfold normMods
  rw [List.append_assoc]
  refine ⟨?_, ?_⟩
  · show _ = normKeeps N.M L t ρ κ ((normSlots N.batch).getD 0 3)
    cases N.batch <;> rfl
  rw [hp1]
  cases hb : N.batch with
  | false => exact tail 1 _ A1 eA1 rfl rfl rfl rfl
  | true =>
    have hbc := both_canon (σ := fun k => (normSlots true).getD k 3) (κ := κ) cs cb hm hx
      (fun v hv => (f1 v (hW v hv)).1) hW (fun v hv => (f1 v (hW v hv)).2.1.trans (hr v hv)) v1 eA1
      rfl ⟨rfl, rfl, rfl, rfl, rfl, rfl, rfl, rfl⟩
    obtain ⟨-, a2, -⟩ := both_run (S := A1) (x := fun w => (S w).t) (rg := fun w => (S w).rg) cs cb hm hx
      (fun v hv => (f1 v (hW v hv)).1) hW (ρ := ρ) (fun v hv => (f1 v (hW v hv)).2.1.trans (hr v hv)) v1
    refine (canon_append [plainMod [normSumsPhase N.M], reduceMod cs N.M.sr (parLens 2), plainMod [normDivPhase N.M 2],
      bcastMod cb N.M.bc (parLens 2), plainMod [normSquaresPhase N.M], reduceMod cs N.M.sr (parLens 3),
      plainMod [normDivPhase N.M 3], bcastMod cb N.M.bc (parLens 3)]
      _ 1 A1).2 ⟨hbc, tail 9 _ _ (fun w hw => ?_) rfl rfl rfl rfl⟩
    have e : (List.map Mod.prog [plainMod [normSumsPhase N.M], reduceMod cs N.M.sr (parLens 2), plainMod [normDivPhase N.M 2],
        bcastMod cb N.M.bc (parLens 2), plainMod [normSquaresPhase N.M], reduceMod cs N.M.sr (parLens 3),
        plainMod [normDivPhase N.M 3], bcastMod cb N.M.bc (parLens 3)]) = bothCuts cs cb N.M := by
      simp [bothCuts, statCuts, plainMod_prog, bcastMod_prog, reduceMod_prog]
    rw [e, (a2 w hw).2.2.1]
    exact eA1 w hw

end

end Verif.Net
