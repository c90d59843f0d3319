import Verif.Net.Train
import Mathlib.Algebra.Group.PUnit

/-!
# Networks: structures do not depend on entries

The shapes, types and flags of all tensors in a forward pass, and the structures the layers exchange, are determined by
those of the inputs and parameters, whatever the entries.  Used for repeated calls of a network, where what setup found in
the first call is used again in later ones.
-/

namespace Verif

/-- A tensor without its entries. -/
def Tensor.bare {F : Type} (z : Tensor F) : Tensor Unit := ⟨z.shape, z.dtype, fun _ => ()⟩

/-- A call without the entries of its tensors. -/
def Call.bare {F : Type} : Call F → Call Unit
  | .ibcast b => .ibcast b.bare
  | .ireduce s r => .ireduce (s.map Tensor.bare) r.bare

end Verif

namespace Verif.Net

variable {F β : Type}

/-- A message without entries. -/
def NMsg.bare : NMsg F → NMsg Unit
  | .none => .none
  | .info f => .info f
  | .arr _ => .arr fun _ => ()
  | .call c => .call c.bare

/-- Local data without entries. -/
def NSt.bare (x : NSt F) : NSt Unit :=
  ⟨x.t.bare, x.rg, x.err, x.info, x.str, ⟨fun _ => (), fun _ => ()⟩, fun i => ((x.par i).1.bare, (x.par i).2)⟩

theorem tensor_bare {a b : Tensor F} : a.bare = b.bare ↔ a.shape = b.shape ∧ a.dtype = b.dtype := by
  simp [Tensor.bare]

theorem bare_eq {x y : NSt F} : x.bare = y.bare ↔ x.t.bare = y.t.bare ∧ x.rg = y.rg ∧ x.err = y.err ∧ x.info = y.info ∧
    x.str = y.str ∧ ∀ i, (x.par i).1.bare = (y.par i).1.bare ∧ (x.par i).2 = (y.par i).2 := by
  simp only [NSt.bare, NSt.mk.injEq, true_and, funext_iff, Prod.mk.injEq]

theorem bare_own {x y : NSt F} (h : x.bare = y.bare) : x.own = y.own := by
  obtain ⟨h1, h2, -⟩ := bare_eq.1 h
  obtain ⟨h3, h4⟩ := tensor_bare.1 h1
  simp only [NSt.own, h2, h3, h4]

/-! ## Phases -/

/-- Two requests on the same channel whose messages and effects differ in entries only. -/
structure ReqLike (r r' : Req (NSt F) (NMsg F)) : Prop where
  key : r.key = r'.key
  put : r.put.bare = r'.put.bare
  deps : r.deps = r'.deps
  get : ∀ ms ms' x y, ms.map NMsg.bare = ms'.map NMsg.bare → x.bare = y.bare → (r.get ms x).bare = (r'.get ms' y).bare

/-- Two phases that do the same up to entries. -/
def PhLike (ph ph' : Nat → NSt F → Phase (NSt F) (NMsg F)) : Prop :=
  ∀ w x y, x.bare = y.bare → List.Forall₂ ReqLike (ph w x).reqs (ph' w y).reqs ∧
    ∀ a b, a.bare = b.bare → ((ph w x).work a).bare = ((ph' w y).work b).bare

/-- Two programs that do the same up to entries. -/
abbrev ProgLike (p p' : Prog (NSt F) (NMsg F)) : Prop := List.Forall₂ PhLike p p'

theorem find_like {l l' : List (Req (NSt F) (NMsg F))} (h : List.Forall₂ ReqLike l l') (k : Key) :
    ((l.find? fun r => r.key = k).map Req.put).map NMsg.bare = ((l'.find? fun r => r.key = k).map Req.put).map NMsg.bare := by
  induction h with
  | nil => rfl
  | @cons r r' l l' h1 _ ih =>
    rw [List.find?_cons, List.find?_cons, ← h1.key]
    by_cases e : r.key = k
    · simp [e, h1.put]
    · simpa [e] using ih

theorem filterMap_bare {f f' : Nat → Option (NMsg F)} (h : ∀ u, (f u).map NMsg.bare = (f' u).map NMsg.bare) (d : List Nat) :
    (d.filterMap f).map NMsg.bare = (d.filterMap f').map NMsg.bare := by
  rw [List.map_filterMap, List.map_filterMap]
  exact List.filterMap_congr fun u _ => h u

theorem sync_like {ph ph' : Nat → NSt F → Phase (NSt F) (NMsg F)} (h : PhLike ph ph') {S S' : Nat → NSt F}
    (hS : ∀ w, (S w).bare = (S' w).bare) (w : Nat) : (sync ph S w).bare = (sync ph' S' w).bare := by
  have hc : ∀ k u, (contribution ph S k u).map NMsg.bare = (contribution ph' S' k u).map NMsg.bare := fun k u =>
    find_like (h u _ _ (hS u)).1 k
  obtain ⟨h1, h2⟩ := h w _ _ (hS w)
  have key : ∀ (l l' : List (Req (NSt F) (NMsg F))), List.Forall₂ ReqLike l l' → ∀ a b : NSt F, a.bare = b.bare →
      (l.foldl (fun x r => r.get (r.deps.filterMap (contribution ph S r.key)) x) a).bare =
      (l'.foldl (fun x r => r.get (r.deps.filterMap (contribution ph' S' r.key)) x) b).bare := by
    intro l l' hl
    induction hl with
    | nil => exact fun _ _ e => e
    | @cons r r' l l' hr _ ih =>
      intro a b e
      rw [List.foldl_cons, List.foldl_cons]
      refine ih _ _ (hr.get _ _ _ _ ?_ e)
      rw [hr.key, hr.deps]
      exact filterMap_bare (hc _) _
  exact key _ _ h1 _ _ (h2 _ _ (hS w))

theorem run_like {p p' : Prog (NSt F) (NMsg F)} (h : ProgLike p p') {S S' : Nat → NSt F}
    (hS : ∀ w, (S w).bare = (S' w).bare) : ∀ w, (run p S w).bare = (run p' S' w).bare := by
  induction h generalizing S S' with
  | nil => exact hS
  | cons h _ ih => exact ih (sync_like h hS)

theorem ProgLike.append {a a' b b' : Prog (NSt F) (NMsg F)} (h : ProgLike a a') (h' : ProgLike b b') :
    ProgLike (a ++ b) (a' ++ b') := List.rel_append h h'

/-! ### Kinds of phases -/

theorem local_like {f f' : Nat → NSt F → NSt F} (h : ∀ w a b, a.bare = b.bare → (f w a).bare = (f' w b).bare) :
    PhLike (localPhase f) (localPhase f') := fun w _ _ _ => ⟨.nil, h w⟩

theorem coll_like {c : Nat} {act : Nat → Bool} {grp : Nat → List Nat} {put put' : Nat → NSt F → NMsg F}
    {deps : Nat → List Nat} {get get' : Nat → List (NMsg F) → NSt F → NSt F}
    (hp : ∀ w x y, x.bare = y.bare → (put w x).bare = (put' w y).bare)
    (hg : ∀ w ms ms' x y, ms.map NMsg.bare = ms'.map NMsg.bare → x.bare = y.bare → (get w ms x).bare = (get' w ms' y).bare) :
    PhLike (collPhase c act grp put deps get) (collPhase c act grp put' deps get') := by
  intro w x y h
  unfold collPhase
  split
  · exact ⟨.cons ⟨rfl, hp w x y h, rfl, hg w⟩ .nil, fun _ _ e => e⟩
  · exact ⟨.nil, fun _ _ e => e⟩

theorem pair_like {c : Nat} {a b : Nat → Option (List Nat)} {pa pb pa' pb' : Nat → NSt F → NMsg F}
    {da db : Nat → List Nat → List Nat} {ga gb ga' gb' : Nat → List Nat → List (NMsg F) → NSt F → NSt F}
    {work work' : Nat → NSt F → NSt F} {back : Bool}
    (h1 : ∀ w x y, x.bare = y.bare → (pa w x).bare = (pa' w y).bare)
    (h2 : ∀ w x y, x.bare = y.bare → (pb w x).bare = (pb' w y).bare)
    (h3 : ∀ w g ms ms' x y, ms.map NMsg.bare = ms'.map NMsg.bare → x.bare = y.bare →
      (ga w g ms x).bare = (ga' w g ms' y).bare)
    (h4 : ∀ w g ms ms' x y, ms.map NMsg.bare = ms'.map NMsg.bare → x.bare = y.bare →
      (gb w g ms x).bare = (gb' w g ms' y).bare)
    (h5 : ∀ w x y, x.bare = y.bare → (work w x).bare = (work' w y).bare) :
    PhLike (pairPhase c a b pa pb da db ga gb work back) (pairPhase c a b pa' pb' da db ga' gb' work' back) := by
  intro w x y h
  refine ⟨List.rel_append ?_ ?_, h5 w⟩
  · rcases a w with _ | g
    · exact .nil
    · exact .cons ⟨rfl, h1 w x y h, rfl, h3 w g⟩ .nil
  · rcases b w with _ | g
    · exact .nil
    · simp only
      split
      · exact .nil
      · exact .cons ⟨rfl, h2 w x y h, rfl, h4 w g⟩ .nil

theorem forall₂_filterMap {α γ : Type} {R : γ → γ → Prop} {f f' : α → Option γ} (l : List α)
    (h : ∀ a, Option.Rel R (f a) (f' a)) : List.Forall₂ R (l.filterMap f) (l.filterMap f') := by
  induction l with
  | nil => exact .nil
  | cons a l ih =>
    have := h a
    rw [List.filterMap_cons, List.filterMap_cons]
    generalize f a = u at this ⊢
    generalize f' a = v at this ⊢
    cases this with
    | none => exact ih
    | some e => exact .cons e ih

theorem unpack_bare {τ ν : Type} {L : Lens (NSt F) τ} {I : Inj ν (NMsg F)} (hL : ∀ y x, (L.set y x).bare = x.bare)
    (f : ν → τ → τ) (ms : List (NMsg F)) (x : NSt F) : (unpackAt L I f ms x).bare = x.bare := by
  unfold unpackAt
  split
  · exact hL _ _
  · rfl

theorem lift_like {τ ν : Type} {M : List Nat} {cr cs : Nat → Nat} {L : Lens (NSt F) τ} {I : Inj ν (NMsg F)} {junk : NMsg F}
    {ph : Nat → NSt F → Exchange.Phase τ ν} (hL : ∀ y x, (L.set y x).bare = x.bare)
    (hI : ∀ m m', (I.inj m).bare = (I.inj m').bare) (hp : ∀ w x y, x.bare = y.bare → ph w x = ph w y) :
    PhLike (liftPhase M cr cs L I junk ph) (liftPhase M cr cs L I junk ph) := by
  intro w x y h
  unfold liftPhase
  split
  · rw [hp w x y h]
    refine ⟨List.rel_append (forall₂_filterMap _ fun k => ?_) (forall₂_filterMap _ fun k => ?_), fun a b e => ?_⟩
    · unfold recvReq
      split
      · refine .some ⟨rfl, rfl, rfl, fun ms ms' x y _ e => ?_⟩
        exact (unpack_bare hL _ _ _).trans (e.trans (unpack_bare hL _ _ _).symm)
      · exact .none
    · unfold sendReq
      split
      · exact .some ⟨rfl, hI _ _, rfl, fun _ _ _ _ _ e => e⟩
      · exact .none
    · rw [hL, hL, e]
  · exact ⟨.nil, fun _ _ e => e⟩

/-! ## Setup -/

theorem getElem?_bare {ms ms' : List (NMsg F)} (h : ms.map NMsg.bare = ms'.map NMsg.bare) (i : Nat) :
    (ms[i]?).map NMsg.bare = (ms'[i]?).map NMsg.bare := by
  rw [← List.getElem?_map, ← List.getElem?_map, h]

/-- The structure in a message. -/
theorem msg_info {m m' : Option (NMsg F)} (h : m.map NMsg.bare = m'.map NMsg.bare) (v : Nat) :
    (match (generalizing := false) m with | some (.info f) => f v | _ => noInfo) =
      match (generalizing := false) m' with | some (.info f) => f v | _ => noInfo := by
  rcases m with _ | (_ | _ | _ | _) <;> rcases m' with _ | (_ | _ | _ | _) <;>
    first
      | rfl
      | (simp only [Option.map_some, Option.map_none, NMsg.bare] at h; cases h; done)
      | (simp only [Option.map_some, NMsg.bare, Option.some.injEq, NMsg.info.injEq] at h; rw [h])

theorem set_info {x y : NSt F} (h : x.bare = y.bare) {f g : Nat → Info} (e : f = g) :
    ({ x with info := f } : NSt F).bare = ({ y with info := g } : NSt F).bare := by
  subst e
  have := bare_eq.1 h
  exact bare_eq.2 ⟨this.1, this.2.1, this.2.2.1, rfl, this.2.2.2.2⟩

theorem set_str {x y : NSt F} (h : x.bare = y.bare) {f g : Info} (e : f = g) :
    ({ x with str := f } : NSt F).bare = ({ y with str := g } : NSt F).bare := by
  subst e
  have := bare_eq.1 h
  exact bare_eq.2 ⟨this.1, this.2.1, this.2.2.1, this.2.2.2.1, rfl, this.2.2.2.2.2⟩

theorem set_err {x y : NSt F} (h : x.bare = y.bare) (e : Bool) :
    ({ x with err := e } : NSt F).bare = ({ y with err := e } : NSt F).bare := by
  have := bare_eq.1 h
  exact bare_eq.2 ⟨this.1, this.2.1, rfl, this.2.2.2⟩

theorem set_ten {x y : NSt F} (h : x.bare = y.bare) {a b : Tensor F} (e : a.bare = b.bare) :
    ({ x with t := a } : NSt F).bare = ({ y with t := b } : NSt F).bare := by
  have := bare_eq.1 h
  exact bare_eq.2 ⟨e, this.2⟩

theorem gather_like (c : Nat) (act : Nat → Bool) (grp : Nat → List Nat) :
    PhLike (gatherPhase (F := F) c act grp) (gatherPhase c act grp) := by
  refine coll_like (fun w x y h => ?_) fun w ms ms' x y hm h => set_info h ?_
  · show NMsg.info _ = NMsg.info _
    rw [bare_own h]
  · funext v
    split
    · exact msg_info (getElem?_bare hm _) v
    · rfl

theorem sub_like (c : Nat) (P : Cart) : PhLike (subPhase (F := F) c P) (subPhase c P) :=
  coll_like (fun _ _ _ _ => rfl) fun _ _ _ _ _ _ h => h

theorem head_bare {m m' : List (NMsg F)} (h : m.map NMsg.bare = m'.map NMsg.bare) :
    (∃ f r r', m = .info f :: r ∧ m' = .info f :: r') ∨ ((∀ f r, m ≠ .info f :: r) ∧ ∀ f r, m' ≠ .info f :: r) := by
  rcases m with _ | ⟨a, m⟩ <;> rcases m' with _ | ⟨b, m'⟩
  · exact .inr ⟨by simp, by simp⟩
  · simp at h
  · simp at h
  · rw [List.map_cons, List.map_cons] at h
    have h1 := (List.cons.inj h).1
    cases a <;> cases b <;> simp_all [NMsg.bare]

theorem no_head {γ : Type} {m : List (NMsg F)} (h : ∀ f r, m ≠ .info f :: r) (A : (Nat → Info) → γ) (B : γ) :
    (match (generalizing := false) m with | .info f :: _ => A f | _ => B) = B := by
  split
  · exact absurd rfl (h _ _)
  · rfl

theorem share_like (c : Nat) (U : List Nat) (root : Nat) : PhLike (sharePhase (F := F) c U root) (sharePhase c U root) := by
  refine coll_like (fun w x y h => ?_) fun w ms ms' x y hm h => ?_
  · show NMsg.info _ = NMsg.info _
    rw [(bare_eq.1 h).2.2.2.1]
  · rcases head_bare hm with ⟨f, r, r', rfl, rfl⟩ | ⟨h1, h2⟩
    · exact set_info h rfl
    · exact (congrArg NSt.bare (no_head h1 (fun f => { x with info := f }) x)).trans
        (h.trans (congrArg NSt.bare (no_head h2 (fun f => { y with info := f }) y)).symm)

theorem assemble_like (c : Nat) (P : Cart) : ProgLike (assembleProg (F := F) c P) (assembleProg c P) := by
  unfold assembleProg
  induction List.range P.shape.length with
  | nil => exact .nil
  | cons i l ih =>
    rw [List.flatMap_cons]
    exact ProgLike.append (.cons (sub_like c P) (.cons (gather_like _ _ _) .nil)) ih

theorem setup_like (c : Nat) (P : Cart) : ProgLike (setupProg (F := F) c P) (setupProg c P) :=
  (assemble_like c P).append (.cons (gather_like _ _ _) .nil)

theorem setupUnion_like (c : Nat) (P : Cart) (U : List Nat) :
    ProgLike (setupUnionProg (F := F) c P U) (setupUnionProg c P U) :=
  ((assemble_like c P).append (.cons (share_like _ _ _) (.cons (share_like _ _ _) (.cons (share_like _ _ _) .nil)))).append
    (.cons (gather_like _ _ _) (.cons (share_like _ _ _) .nil))

theorem setupPart_like (c : Nat) (P : Cart) (U : List Nat) :
    ProgLike (setupPartProg (F := F) c P U) (setupPartProg c P U) :=
  ((assemble_like c P).append (.cons (share_like _ _ _) (.cons (share_like _ _ _) (.cons (share_like _ _ _) .nil)))).append
    (.cons (gather_like _ _ _) .nil)

/-! ## Broadcast and sum-reduction -/

/-- Reading and writing a tensor respects equality up to entries. -/
structure LensLike (ℓ : Lens (NSt F) (Tensor F × Bool)) : Prop where
  get : ∀ x y, x.bare = y.bare → (ℓ.get x).1.bare = (ℓ.get y).1.bare ∧ (ℓ.get x).2 = (ℓ.get y).2
  set : ∀ a b (r : Bool) x y, Tensor.bare a = Tensor.bare b → x.bare = y.bare →
    (ℓ.set (a, r) x).bare = (ℓ.set (b, r) y).bare

theorem like_ten : LensLike (tenLens : Lens (NSt F) _) where
  get _ _ h := ⟨(bare_eq.1 h).1, (bare_eq.1 h).2.1⟩
  set _ _ _ _ _ e h := bare_eq.2 ⟨e, rfl, (bare_eq.1 h).2.2⟩

theorem like_par (i : Nat) : LensLike (parLens i : Lens (NSt F) _) where
  get _ _ h := (bare_eq.1 h).2.2.2.2.2 i
  set a b r x y e h := by
    have := bare_eq.1 h
    refine bare_eq.2 ⟨this.1, this.2.1, this.2.2.1, this.2.2.2.1, this.2.2.2.2.1, fun j => ?_⟩
    show (if j = i then (a, r) else x.par j).1.bare = (if j = i then (b, r) else y.par j).1.bare ∧
      (if j = i then (a, r) else x.par j).2 = (if j = i then (b, r) else y.par j).2
    split
    · exact ⟨e, rfl⟩
    · exact this.2.2.2.2.2 j

variable {ℓ : Lens (NSt F) (Tensor F × Bool)}

theorem LensLike.info (h : LensLike ℓ) {x y : NSt F} (e : x.bare = y.bare) : infoOf ℓ x = infoOf ℓ y := by
  obtain ⟨h1, h2⟩ := h.get x y e
  obtain ⟨h3, h4⟩ := tensor_bare.1 h1
  simp only [infoOf, h2, h3, h4]

theorem create_like (c : Nat) (L : PairLayer) : PhLike (createPhase (F := F) c L) (createPhase c L) :=
  coll_like (fun _ _ _ _ => rfl) fun _ _ _ _ _ _ h => h

theorem infosOf_bare (ms : List (NMsg F)) : infosOf (ms.map NMsg.bare) = infosOf ms := by
  unfold infosOf
  rw [List.filterMap_map]
  refine List.filterMap_congr fun m _ => ?_
  cases m <;> rfl

theorem struct_like (c : Nat) (send recv : Nat → Option (List Nat)) (h : LensLike ℓ) :
    PhLike (structPhase c send recv ℓ) (structPhase c send recv ℓ) := by
  refine pair_like (fun w x y e => ?_) (fun _ _ _ _ => rfl) (fun _ _ _ _ _ _ _ e => e) (fun w g ms ms' x y hm e => ?_)
    fun w x y e => ?_
  · show NMsg.info _ = NMsg.info _
    rw [h.info e]
  · have : infosOf ms = infosOf ms' := by rw [← infosOf_bare, hm, infosOf_bare]
    rw [this]
    split
    · exact set_str e rfl
    · exact set_err e true
  · split
    · exact set_str e (h.info e)
    · exact e

section
variable [AddCommMonoid F]

theorem zeroVolume_like (pb : Bool) {a b : Tensor F} (h : a.bare = b.bare) : zeroVolume pb a = zeroVolume pb b := by
  unfold zeroVolume
  rw [(tensor_bare.1 h).1]

theorem blank_like (h : LensLike ℓ) (pb : Bool) {x y : NSt F} (e : x.bare = y.bare) :
    (blank pb ℓ x).bare = (blank pb ℓ y).bare := by
  unfold blank
  rw [zeroVolume_like pb (h.get x y e).1]
  split
  · exact h.set _ _ _ _ _ rfl e
  · exact set_err e true

omit [AddCommMonoid F] in
theorem sameKind_bare (a b : Tensor F) : sameKind a.bare b.bare = sameKind a b := rfl

omit [AddCommMonoid F] in
theorem ibcast_bare {m m' : List (NMsg F)} (h : m.map NMsg.bare = m'.map NMsg.bare) :
    (∃ a b r r', m = .call (.ibcast a) :: r ∧ m' = .call (.ibcast b) :: r' ∧ a.bare = b.bare) ∨
      ((∀ a r, m ≠ .call (.ibcast a) :: r) ∧ ∀ a r, m' ≠ .call (.ibcast a) :: r) := by
  rcases m with _ | ⟨a, m⟩ <;> rcases m' with _ | ⟨b, m'⟩
  · exact .inr ⟨by simp, by simp⟩
  · simp at h
  · simp at h
  · rw [List.map_cons, List.map_cons] at h
    have h1 := (List.cons.inj h).1
    rcases a with _ | _ | _ | (_ | _) <;> rcases b with _ | _ | _ | (_ | _) <;> simp_all [NMsg.bare, Call.bare]

omit [AddCommMonoid F] in
theorem no_ibcast {γ : Type} {m : List (NMsg F)} (h : ∀ a r, m ≠ .call (.ibcast a) :: r) (A : Tensor F → γ) (B : γ) :
    (match (generalizing := false) m with | .call (.ibcast b) :: _ => A b | _ => B) = B := by
  split
  · exact absurd rfl (h _ _)
  · rfl

theorem copy_like (c : Nat) (send recv : Nat → Option (List Nat)) (pb : Bool) (h : LensLike ℓ) (buf : Nat → NSt F → Info)
    (hb : ∀ w x y, x.bare = y.bare → buf w x = buf w y) :
    PhLike (copyPhase c send recv pb ℓ buf) (copyPhase c send recv pb ℓ buf) := by
  refine pair_like (fun w x y e => ?_) (fun w x y e => ?_) (fun _ _ _ _ _ _ _ e => e) (fun w g ms ms' x y hm e => ?_)
    fun w x y e => ?_
  · show NMsg.call (Call.ibcast _) = NMsg.call (Call.ibcast _)
    rw [(h.get x y e).1]
  · rw [hb w x y e]
  · rcases ibcast_bare hm with ⟨a, b, r, r', rfl, rfl, hab⟩ | ⟨h1, h2⟩
    · dsimp only
      rw [hb w x y e, ← sameKind_bare a, hab, sameKind_bare]
      split
      · exact h.set _ _ _ _ _ hab e
      · exact set_err e true
    · refine (congrArg NSt.bare (no_ibcast h1 (fun b => if sameKind b (zerosInfo (buf w x)) then
        ℓ.set (b, (buf w x).2.2) x else { x with err := true }) _)).trans ((set_err e true).trans ?_)
      exact (congrArg NSt.bare (no_ibcast h2 (fun b => if sameKind b (zerosInfo (buf w y)) then
        ℓ.set (b, (buf w y).2.2) y else { y with err := true }) _)).symm
  · split
    · exact e
    · exact blank_like h pb e

omit [AddCommMonoid F] in
theorem callsOf_bare (ms : List (NMsg F)) : callsOf (ms.map NMsg.bare) = (callsOf ms).map Call.bare := by
  unfold callsOf
  rw [List.filterMap_map, List.map_filterMap]
  refine List.filterMap_congr fun m _ => ?_
  cases m <;> rfl

omit [AddCommMonoid F] in
theorem contribution_bare (b : Bool) (c : Call F) : Verif.contribution b c.bare = (Verif.contribution b c).map Tensor.bare := by
  rcases c with _ | ⟨_ | _, _⟩
  · rfl
  · unfold Verif.contribution Call.bare
    simp only [Option.map_none]
    split <;> rfl
  · rfl

theorem mapM_bare (cs : List (Call F)) : (cs.map Call.bare).mapM (Verif.contribution false) =
    (cs.mapM (Verif.contribution false)).map (List.map Tensor.bare) := by
  induction cs with
  | nil => rfl
  | cons c cs ih =>
    rw [List.map_cons, List.mapM_cons, List.mapM_cons, ih, contribution_bare]
    cases Verif.contribution false c <;> cases cs.mapM (Verif.contribution false) <;> rfl

theorem reduceResult_bare (cs : List (Call F)) :
    reduceResult (cs.map Call.bare) = (reduceResult cs).map Tensor.bare := by
  rcases cs with _ | ⟨_ | ⟨x, r⟩, rest⟩
  · rfl
  · rfl
  · show reduceResult (.ireduce (x.map Tensor.bare) r.bare :: rest.map Call.bare) = _
    unfold reduceResult
    simp only
    rw [show Call.ireduce (x.map Tensor.bare) r.bare = (Call.ireduce x r).bare from rfl, contribution_bare, mapM_bare]
    cases Verif.contribution true (.ireduce x r) with
    | none => rfl
    | some c =>
      cases rest.mapM (Verif.contribution false) with
      | none => rfl
      | some cs =>
        simp only [Option.map_some]
        have e : ((c.bare :: cs.map Tensor.bare).all fun t => sameKind r.bare t) = (c :: cs).all fun t => sameKind r t := by
          rw [← List.map_cons, List.all_map]
          rfl
        rw [e]
        split <;> rfl

theorem reduce_like' {ms ms' : List (NMsg F)} (h : ms.map NMsg.bare = ms'.map NMsg.bare) :
    (reduceResult (callsOf ms)).map Tensor.bare = (reduceResult (callsOf ms')).map Tensor.bare := by
  rw [← reduceResult_bare, ← reduceResult_bare, ← callsOf_bare, ← callsOf_bare, h]

theorem sum_like (c : Nat) (send recv : Nat → Option (List Nat)) (pb : Bool) (h : LensLike ℓ) (lf rt : Nat → NSt F → Info)
    (hl : ∀ w x y, x.bare = y.bare → lf w x = lf w y) (hr : ∀ w x y, x.bare = y.bare → rt w x = rt w y) :
    PhLike (sumPhase c send recv pb ℓ lf rt) (sumPhase c send recv pb ℓ lf rt) := by
  have key : ∀ (w : Nat) (g : List Nat) (ms ms' : List (NMsg F)) (x y : NSt F), ms.map NMsg.bare = ms'.map NMsg.bare →
      x.bare = y.bare →
      (if g.head? = some w then
        match reduceResult (callsOf ms) with
        | some z => ℓ.set (z, (rt w x).2.2) x
        | none => { x with err := true }
      else x).bare =
      (if g.head? = some w then
        match reduceResult (callsOf ms') with
        | some z => ℓ.set (z, (rt w y).2.2) y
        | none => { y with err := true }
      else y).bare := by
    intro w g ms ms' x y hm e
    have := reduce_like' hm
    split
    · rcases h1 : reduceResult (callsOf ms) with _ | a <;> rcases h2 : reduceResult (callsOf ms') with _ | b <;>
        rw [h1, h2] at this <;> simp at this
      · exact set_err e true
      · rw [hr w x y e]
        exact h.set _ _ _ _ _ this e
    · exact e
  refine pair_like (fun w x y e => ?_) (fun w x y e => ?_) key key fun w x y e => ?_
  · show NMsg.call (Call.ireduce (some _) _) = NMsg.call (Call.ireduce (some _) _)
    rw [(h.get x y e).1, hl w x y e]
  · rw [hr w x y e]
  · split
    · exact e
    · exact blank_like h pb e

omit [AddCommMonoid F] in
theorem bare_str {x y : NSt F} (e : x.bare = y.bare) : x.str = y.str := (bare_eq.1 e).2.2.2.2.1

end

end Verif.Net
