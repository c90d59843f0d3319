import Verif.Build.Lines

/-!
# Building: layers and scripts
-/

namespace Verif.Build

variable {W : List Nat}

/-- The partition lies within `W` and is one MPI could have made. -/
structure Placed (W : List Nat) (P : CPart) : Prop where
  wf : P.cart.WF
  sub : ∀ w ∈ P.cart.members, w ∈ W

theorem newRepartition_joint (world : Comm) (n : List Nat) {Px Py : CPart} (hx : Placed W Px) (hy : Placed W Py)
    (hroot : ∃ r, Px.cart.root = some r ∧ Py.cart.root = some r)
    (hdim : Px.cart.shape.length = Py.cart.shape.length) :
    ∃ G, Joint W (newRepartition world n Px Py) (fun _ => ()) G := by
  set U := groupUnion Px.cart.members Py.cart.members with hU
  have hUW : ∀ w ∈ U, w ∈ W := fun w hw => (mem_groupUnion.1 hw).elim (hx.sub w) (hy.sub w)
  obtain ⟨r, r1, r2⟩ := hroot
  have hu : createUnion Px.part Py.part = some ⟨U, some r⟩ := by
    unfold createUnion CPart.part
    simp only [r1, r2, identicalComm, beq_self_eq_true, Bool.not_true, Bool.false_eq_true, if_false, hU]
  let c : Comm := ⟨n ++ [0], U⟩
  have hcc : ∀ w ∈ c.members, w ∈ U := fun w hw => hw
  obtain ⟨G1, h1⟩ := shareFrom_joint (W := U) (c := c) (WF_ne_nil hx.wf) (fun w hw => mem_groupUnion.2 (.inl hw)) hcc
  obtain ⟨G2, h2⟩ := shareFrom_joint (W := U) (c := c) (WF_ne_nil hy.wf) (fun w hw => mem_groupUnion.2 (.inr hw)) hcc
  have h4 := Joint.bind (union_joint (W := U) (n := n ++ [0]) hu hcc world) (f := fun w _ => shareFrom c Px.cart.members w >>= fun _ =>
    shareFrom c Py.cart.members w >>= fun _ => call (.on c) .allgather >>= fun _ => call (.on c) .allgather)
      (Joint.seq h1 (Joint.seq h2 (Joint.seq (Joint.on c _) (Joint.on c _))))
  refine ⟨_, (h4.only hUW).congr fun w hw => ?_⟩
  unfold newRepartition
  by_cases hm : w ∈ U
  · have hm' := mem_groupUnion.1 hm
    rw [if_neg (by tauto), if_pos hm]
    have hres := (union_joint (W := U) (n := n ++ [0]) hu hcc world).res w hm
    rw [bind_eq hres, bind_eq hres]
    have hm2 : w ∈ (⟨U, some r⟩ : Part).members := hm
    simp only [hm2, not_true_eq_false, if_false, ne_eq, hdim]
    rfl
  · rw [if_pos (by rw [hU, mem_groupUnion] at hm; tauto), if_neg hm]

theorem first_inner {m : List Nat} (hm : m ≠ []) (root : Option Nat) {shape : List Nat} (hp : ∀ n ∈ shape, 0 < n)
    (hs : shape.prod = 1) :
    ∃ Q, ((createInclusive ⟨m, root⟩ [0]).bind fun P => createCartesian P shape) = some Q := by
  obtain ⟨x, xs, rfl⟩ := List.exists_cons_of_ne_nil hm
  refine ⟨⟨[x], shape, root⟩, ?_⟩
  have e1 : createInclusive ⟨x :: xs, root⟩ [0] = some ⟨[x], root⟩ := by
    simp [createInclusive, groupIncl]
  rw [e1, Option.bind_some]
  exact if_pos ⟨hp, hs⟩

theorem newFeatureConv_joint (n : List Nat) {P : CPart} (hP : Placed W P) :
    ∃ G, Joint W (newFeatureConv n P) (fun _ => ()) G := by
  by_cases hone : P.cart.members.length = 1
  · refine ⟨[], Joint.skip.congr fun w _ => ?_⟩
    unfold newFeatureConv
    rw [if_pos hone]
    split <;> rfl
  · obtain ⟨Q, hQ⟩ := first_inner (WF_ne_nil hP.wf) none (shape := [1]) (by simp) rfl
    obtain ⟨G, hG⟩ := inner_joint (c := P.comm) (n := n) hQ
    refine ⟨G, (hG.unless hP.sub).congr fun w _ => ?_⟩
    unfold newFeatureConv
    rw [if_neg hone]
    rfl

theorem newLossLayer_joint (n : List Nat) {P : CPart} (hP : Placed W P) (hall : ∀ w ∈ W, w ∈ P.cart.members) :
    ∃ G, Joint W (newLossLayer n P) (fun _ => ()) G := by
  obtain ⟨Q, hQ⟩ := first_inner (WF_ne_nil hP.wf) none (shape := List.replicate P.cart.shape.length 1) (by
    intro k hk
    rw [List.eq_of_mem_replicate hk]
    exact Nat.one_pos) (by simp)
  obtain ⟨G, hG⟩ := inner_joint (c := P.comm) (n := n) hQ
  refine ⟨G, (hG.only hP.sub).congr fun w hw => ?_⟩
  rw [show P.comm.members = P.cart.members from rfl, if_pos (hall w hw)]
  rfl

theorem newNorm_joint (n : List Nat) {P : CPart} (hP : Placed W P) (hall : ∀ w ∈ W, w ∈ P.cart.members)
    (hdim : 2 ≤ P.cart.shape.length) : ∃ G, Joint W (newNorm n P) (fun _ => ()) G := by
  obtain ⟨Q, hQ, -⟩ := sumPartition_spec (P := ⟨P.cart.members, P.cart.shape, none⟩) ⟨hP.wf.nodup, hP.wf.size, hP.wf.pos⟩ hdim
  obtain ⟨G, hG⟩ := inner_joint (c := P.comm) (n := n) hQ
  refine ⟨G, (hG.only hP.sub).congr fun w hw => ?_⟩
  rw [show P.comm.members = P.cart.members from rfl, if_pos (hall w hw)]
  unfold newNorm
  rw [if_neg (Nat.not_lt.2 hdim), if_neg (not_not.2 (hall w hw))]
  rfl

/-- The shapes the convolutions accept. -/
structure ConvShapes (W : List Nat) (ones : Bool) (Px Py Pw : CPart) (Po Pi : Nat) (Sp : List Nat) : Prop where
  x : Placed W Px
  y : Placed W Py
  w : Placed W Pw
  shx : Px.cart.shape = 1 :: Pi :: Sp
  shy : Py.cart.shape = 1 :: Po :: Sp
  shw : Pw.cart.shape = Po :: Pi :: Sp
  root : ∃ ρ, Px.cart.root = some ρ ∧ Py.cart.root = some ρ ∧ Pw.cart.root = some ρ
  spatial : ones = true → ∀ n ∈ Sp, n = 1

variable {ones : Bool} {Px Py Pw : CPart} {Po Pi : Nat} {Sp : List Nat}

/-- The workers of the layer. -/
def workers (Px Py Pw : CPart) : List Nat := groupUnion (groupUnion Pw.cart.members Px.cart.members) Py.cart.members

theorem mem_workers {w : Nat} :
    w ∈ workers Px Py Pw ↔ w ∈ Px.cart.members ∨ w ∈ Py.cart.members ∨ w ∈ Pw.cart.members := by
  unfold workers
  rw [mem_groupUnion, mem_groupUnion]
  tauto

theorem ConvShapes.sub (h : ConvShapes W ones Px Py Pw Po Pi Sp) : ∀ w ∈ workers Px Py Pw, w ∈ W := by
  intro w hw
  rcases mem_workers.1 hw with hw | hw | hw
  · exact h.x.sub w hw
  · exact h.y.sub w hw
  · exact h.w.sub w hw

theorem ConvShapes.pos (h : ConvShapes W ones Px Py Pw Po Pi Sp) : 0 < Po ∧ 0 < Pi ∧ ∀ n ∈ Sp, 0 < n := by
  have := h.w.wf.pos
  rw [h.shw] at this
  exact ⟨this _ (by simp), this _ (by simp), fun n hn => this n (by simp [hn])⟩

theorem ConvShapes.recast_joint (h : ConvShapes W ones Px Py Pw Po Pi Sp) (n : List Nat) :
    ∃ G, Joint (workers Px Py Pw) (recast n ones Px Py Pw) (fun _ => ()) G := by
  obtain ⟨p1, p2, p3⟩ := h.pos
  have a1 : alignedX ones Px.cart.shape Pw.cart.shape = true := by
    unfold alignedX
    rw [h.shx, h.shw]
    cases ones with
    | false => simp
    | true => simpa using h.spatial rfl
  have a2 : alignedY ones Py.cart.shape Pw.cart.shape = true := by
    unfold alignedY
    rw [h.shy, h.shw]
    cases ones with
    | false => simp
    | true => simpa using h.spatial rfl
  have c1 := cartesian_joint (W := workers Px Py Pw) (c := Px.comm) (n := n ++ [2]) (shape := castXShape Px.cart.shape) (by
      rw [h.shx]
      intro k hk
      simp only [castXShape, List.take_succ_cons, List.take_zero, List.cons_append, List.nil_append, List.drop_succ_cons,
        List.drop_zero, List.mem_cons] at hk
      rcases hk with rfl | rfl | hk
      · exact Nat.one_pos
      · exact p2
      · exact p3 k hk) (by
      have := h.x.wf.size
      rw [h.shx] at this
      rw [h.shx, show Px.comm.members.length = _ from this]
      simp [castXShape]) (fun w hw => mem_workers.2 (.inl hw))
  have c2 := cartesian_joint (W := workers Px Py Pw) (c := Py.comm) (n := n ++ [3]) (shape := castYShape Py.cart.shape) (by
      rw [h.shy]
      intro k hk
      simp only [castYShape, List.take_succ_cons, List.take_zero, List.cons_append, List.nil_append, List.drop_succ_cons,
        List.drop_zero, List.mem_cons] at hk
      rcases hk with rfl | rfl | hk
      · exact p1
      · exact Nat.one_pos
      · exact p3 k hk) (by
      have := h.y.wf.size
      rw [h.shy] at this
      rw [h.shy, show Py.comm.members.length = _ from this]
      simp [castYShape]) (fun w hw => mem_workers.2 (.inr (.inl hw)))
  refine ⟨_, (Joint.seq c1 c2).congr fun w _ => ?_⟩
  unfold recast
  simp only [a1, a2, if_true, ite_self]

theorem ConvShapes.unions (h : ConvShapes W ones Px Py Pw Po Pi Sp) : ∃ ρ,
    createUnion Pw.part Px.part = some ⟨groupUnion Pw.cart.members Px.cart.members, some ρ⟩ ∧
    createUnion ⟨groupUnion Pw.cart.members Px.cart.members, some ρ⟩ Py.part = some ⟨workers Px Py Pw, some ρ⟩ := by
  obtain ⟨ρ, e1, e2, e3⟩ := h.root
  refine ⟨ρ, ?_, ?_⟩
  · unfold createUnion CPart.part
    simp only [e1, e3, identicalComm, beq_self_eq_true, Bool.not_true, Bool.false_eq_true, if_false]
  · unfold createUnion CPart.part workers
    simp only [e2, identicalComm, beq_self_eq_true, Bool.not_true, Bool.false_eq_true, if_false]

theorem newChannelConv_joint (world : Comm) (n : List Nat) (h : ConvShapes W true Px Py Pw Po Pi Sp) :
    ∃ G, Joint W (newChannelConv world n Px Py Pw) (fun _ => ()) G := by
  obtain ⟨ρ, e1, e2⟩ := h.unions
  set V := workers Px Py Pw with hV
  have hT : ∀ w ∈ (⟨groupUnion Pw.cart.members Px.cart.members, some ρ⟩ : Part).members, w ∈ V :=
    fun w hw => mem_groupUnion.2 (.inl hw)
  have hU : ∀ w ∈ (⟨V, some ρ⟩ : Part).members, w ∈ V := fun w hw => hw
  let cT : Comm := ⟨n ++ [0], groupUnion Pw.cart.members Px.cart.members⟩
  let cU : Comm := ⟨n ++ [1], V⟩
  obtain ⟨G1, h1⟩ := shareOwn_joint (W := V) (c := cU) hU
  obtain ⟨G2, h2⟩ := h.recast_joint n
  have hj := Joint.bind (union_joint (n := n ++ [0]) e1 hT world) (Joint.bind (union_joint (n := n ++ [1]) e2 hU world)
    (Joint.seq h1 (Joint.seq (deactivate_joint (c := cT) hT) (Joint.seq (deactivate_joint (c := cU) hU) h2)))
    (f := fun w _ => shareOwn cU w >>= fun _ => deactivate cT w >>= fun _ => deactivate cU w >>= fun _ => recast n true Px Py Pw w))
    (f := fun w _ => union world (n ++ [1]) ⟨groupUnion Pw.cart.members Px.cart.members, some ρ⟩ Py.part w >>= fun _ =>
      shareOwn cU w >>= fun _ => deactivate cT w >>= fun _ => deactivate cU w >>= fun _ => recast n true Px Py Pw w)
  refine ⟨_, (hj.only h.sub).congr fun w hw => ?_⟩
  unfold newChannelConv
  by_cases hm : w ∈ V
  · have hm' := mem_workers.1 hm
    rw [if_neg (by tauto), if_pos hm]
    have r1 := (union_joint (n := n ++ [0]) e1 hT world).res w hm
    have r2 := (union_joint (n := n ++ [1]) e2 hU world).res w hm
    rw [bind_eq r1, bind_eq r1, bind_eq r2, bind_eq r2]
    have hl : ¬ Pw.cart.shape.length < 2 := by rw [h.shw]; simp
    simp only [hl, if_false]
    rfl
  · rw [if_pos (by rw [hV, mem_workers] at hm; tauto), if_neg hm]

theorem ConvShapes.weightParts_joint (h : ConvShapes W ones Px Py Pw Po Pi Sp) (n : List Nat) :
    ∃ G, Joint Pw.cart.members (weightParts n Pw) (fun _ => ()) G := by
  let C : ChanConv := ⟨⟨Px.cart.members, Px.cart.shape, some 0⟩, ⟨Py.cart.members, Py.cart.shape, some 0⟩,
    ⟨Pw.cart.members, Pw.cart.shape, some 0⟩, ⟨[], [], [], []⟩, 1, Pi, Po, true⟩
  have hC : ChanValid C Po Pi Sp := ⟨⟨h.x.wf.nodup, h.x.wf.size, h.x.wf.pos⟩, ⟨h.y.wf.nodup, h.y.wf.size, h.y.wf.pos⟩,
    ⟨h.w.wf.nodup, h.w.wf.size, h.w.wf.pos⟩, h.shx, h.shy, h.shw, ⟨0, rfl, rfl, rfl⟩, ⟨Nat.le_refl _, Nat.le_refl _⟩⟩
  have key : ∀ {ranks shape : List Nat} {Q : Cart} (k : List Nat),
      ((createInclusive ⟨Pw.cart.members, some 0⟩ ranks).bind fun P => createCartesian P shape) = some Q →
      ∃ G, Joint Pw.cart.members (inner Pw.comm k ranks shape) (fun _ => ()) G := by
    intro ranks shape Q k hQ
    refine inner_joint (c := Pw.comm) (Q := ⟨Q.members, shape, none⟩) ?_
    obtain ⟨P, h1, h2⟩ := Option.bind_eq_some_iff.1 hQ
    obtain ⟨g, h3, rfl⟩ := Option.map_eq_some_iff.1 h1
    refine Option.bind_eq_some_iff.2 ⟨⟨g, none⟩, Option.map_eq_some_iff.2 ⟨g, h3, rfl⟩, ?_⟩
    unfold createCartesian at h2 ⊢
    split at h2
    · rename_i hs
      cases h2
      exact if_pos hs
    · cases h2
  obtain ⟨Q1, q1, -⟩ := hC.weightRoot
  obtain ⟨Q2, q2, -⟩ := hC.biasPart
  obtain ⟨Q3, q3, -⟩ := hC.biasRoot
  obtain ⟨G1, h1⟩ := key (n ++ [4]) q1
  obtain ⟨G2, h2⟩ := key (n ++ [5]) q2
  obtain ⟨G3, h3⟩ := key (n ++ [6]) q3
  exact ⟨_, Joint.seq h1 (Joint.seq h2 h3)⟩

theorem newGeneralConv_joint (world : Comm) (n : List Nat) (h : ConvShapes W false Px Py Pw Po Pi Sp)
    (hone : Pw.cart.members.length = 1 →
      (∀ w ∈ Px.cart.members, w ∈ Pw.cart.members) ∧ ∀ w ∈ Py.cart.members, w ∈ Pw.cart.members) :
    ∃ G, Joint W (newGeneralConv world n Px Py Pw) (fun _ => ()) G := by
  obtain ⟨ρ, e1, e2⟩ := h.unions
  set V := workers Px Py Pw with hV
  have hT : ∀ w ∈ (⟨groupUnion Pw.cart.members Px.cart.members, some ρ⟩ : Part).members, w ∈ V :=
    fun w hw => mem_groupUnion.2 (.inl hw)
  have hU : ∀ w ∈ (⟨V, some ρ⟩ : Part).members, w ∈ V := fun w hw => hw
  let cT : Comm := ⟨n ++ [0], groupUnion Pw.cart.members Px.cart.members⟩
  let cU : Comm := ⟨n ++ [1], V⟩
  obtain ⟨G1, h1⟩ := shareOwn_joint (W := V) (c := cU) hU
  obtain ⟨G2, h2⟩ := h.recast_joint n
  obtain ⟨G3, h3⟩ := h.weightParts_joint n
  have h3' := h3.only (W := V) fun w hw => mem_workers.2 (.inr (.inr hw))
  obtain ⟨rest, G4, h4, hrest⟩ : ∃ (rest : Nat → Run Unit) (G4 : List Op), Joint V rest (fun _ => ()) G4 ∧ ∀ w ∈ V,
      rest w = if w ∈ Pw.cart.members ∧ Pw.cart.members.length = 1 then pure () else
        (if w ∈ Pw.cart.members then weightParts n Pw w else pure ()) >>= fun _ => shareOwn cU w >>= fun _ =>
          shareOwn cU w >>= fun _ => shareOwn cU w >>= fun _ => shareOwn cU w := by
    by_cases h0 : Pw.cart.members.length = 1
    · refine ⟨_, _, Joint.skip, fun w hw => ?_⟩
      obtain ⟨s1, s2⟩ := hone h0
      have hmem : w ∈ Pw.cart.members := by
        rcases mem_workers.1 hw with hw | hw | hw
        · exact s1 w hw
        · exact s2 w hw
        · exact hw
      exact (if_pos ⟨hmem, h0⟩).symm
    · refine ⟨_, _, Joint.seq h3' (Joint.seq h1 (Joint.seq h1 (Joint.seq h1 h1))), fun w hw => ?_⟩
      exact (if_neg fun hh => h0 hh.2).symm
  have hj := Joint.bind (union_joint (n := n ++ [0]) e1 hT world) (Joint.bind (union_joint (n := n ++ [1]) e2 hU world)
    (Joint.seq (deactivate_joint (c := cT) hT) (Joint.seq h1 (Joint.seq h2 h4)))
    (f := fun w _ => deactivate cT w >>= fun _ => shareOwn cU w >>= fun _ => recast n false Px Py Pw w >>= fun _ => rest w))
    (f := fun w _ => union world (n ++ [1]) ⟨groupUnion Pw.cart.members Px.cart.members, some ρ⟩ Py.part w >>= fun _ =>
      deactivate cT w >>= fun _ => shareOwn cU w >>= fun _ => recast n false Px Py Pw w >>= fun _ => rest w)
  refine ⟨_, (hj.only h.sub).congr fun w hw => ?_⟩
  unfold newGeneralConv
  by_cases hm : w ∈ V
  · have hm' := mem_workers.1 hm
    rw [if_neg (by tauto), if_pos hm]
    have r1 := (union_joint (n := n ++ [0]) e1 hT world).res w hm
    have r2 := (union_joint (n := n ++ [1]) e2 hU world).res w hm
    rw [bind_eq r1, bind_eq r1, bind_eq r2, bind_eq r2]
    have hl : ¬ Pw.cart.shape.length < 2 := by rw [h.shw]; simp
    simp only [hl, if_false, hrest w hm]
    by_cases hpw : w ∈ Pw.cart.members
    · simp only [hpw, if_true]
      rfl
    · simp only [hpw, if_false]
      rfl
  · rw [if_pos (by rw [hV, mem_workers] at hm; tauto), if_neg hm]

end Verif.Build
