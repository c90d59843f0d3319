import Verif.Build.Props

/-!
# C82: exactly which scripts are built

With partitions of the documented shapes, the only line that is never built is a general convolution whose weights are on
one worker and which has data on another: that worker makes four calls on the communicator of the layer, the others
twenty.
-/

namespace Verif.Build

variable {α β : Type} {W : List Nat}

/-- The calls made on a communicator. -/
def callsOn (c : Comm) (ops : List Op) : Nat := ops.countP fun o => decide (o.chan = .on c)

/-- At most `m` calls on a communicator. -/
def AtMost (c : Comm) (m : Nat) (r : Run α) : Prop := callsOn c r.ops ≤ m

theorem callsOn_append (c : Comm) (a b : List Op) : callsOn c (a ++ b) = callsOn c a + callsOn c b := List.countP_append ..

theorem AtMost.pure (c : Comm) (a : α) : AtMost c 0 (Pure.pure a : Run α) := Nat.le_refl _

theorem AtMost.raise (c : Comm) : AtMost c 0 (raise : Run α) := Nat.le_refl _

theorem AtMost.raising {c : Comm} {f : α → Run β} : AtMost c 0 (Verif.Build.raise >>= f) := Nat.le_refl _

theorem AtMost.bind {c : Comm} {m m' : Nat} {r : Run α} {f : α → Run β} (h : AtMost c m r)
    (h' : ∀ a, r.res = some a → AtMost c m' (f a)) : AtMost c (m + m') (r >>= f) := by
  unfold AtMost at *
  rcases hr : r.res with _ | a
  · have e : (r >>= f).ops = r.ops := by
      show (match r.res with | none => (⟨r.ops, none⟩ : Run β) | some a => ⟨r.ops ++ (f a).ops, (f a).res⟩).ops = _
      rw [hr]
    rw [e]
    omega
  · rw [bind_eq hr]
    show callsOn c (r.ops ++ (f a).ops) ≤ _
    rw [callsOn_append]
    exact Nat.add_le_add h (h' a hr)

/-- None and none. -/
theorem AtMost.then {c : Comm} {r : Run α} {f : α → Run β} (h : AtMost c 0 r)
    (h' : ∀ a, r.res = some a → AtMost c 0 (f a)) : AtMost c 0 (r >>= f) := h.bind h'

theorem AtMost.seq {c : Comm} {r : Run Unit} {s : Run β} (h : AtMost c 0 r) (h' : AtMost c 0 s) :
    AtMost c 0 (r >>= fun _ => s) := h.bind fun _ _ => h'

theorem AtMost.ite {p : Prop} [Decidable p] {c : Comm} {m : Nat} {r s : Run α} (h : AtMost c m r) (h' : AtMost c m s) :
    AtMost c m (if p then r else s) := by
  split
  · exact h
  · exact h'

section
variable {c d : Comm} {w : Nat}

theorem atMost_create (g : List Nat) (t : Nat) (k : Kind) : AtMost c 0 (call (.create d g t) k) := Nat.le_refl _

theorem atMost_call (h : d ≠ c) (k : Kind) : AtMost c 0 (call (.on d) k) := by
  unfold AtMost callsOn call
  rw [List.countP_cons_of_neg (by simpa using h)]
  exact Nat.le_refl _

theorem atMost_inclusive (n ranks : List Nat) : AtMost c 0 (inclusive d n ranks w) := by
  unfold inclusive
  cases groupIncl d.members ranks with
  | none => exact .raise c
  | some g => exact .ite (.raise c) (.ite ((atMost_create g 0 _).seq (.pure c _)) (.pure c _))

theorem atMost_union (n : List Nat) (P Q : Part) : AtMost c 0 (union d n P Q w) := by
  unfold union
  cases createUnion P Q with
  | none => exact .raise c
  | some U => exact .ite ((atMost_create U.members 0 _).seq (.pure c _)) (.pure c _)

theorem atMost_cartesian (h : d ≠ c) (n shape : List Nat) : AtMost c 0 (cartesian d n shape w) := by
  unfold cartesian
  refine .ite ((atMost_call h _).seq ?_) (.pure c _)
  cases createCartesian ⟨d.members, none⟩ shape with
  | none => exact .raise c
  | some _ => exact .pure c _

theorem atMost_deactivate (h : d ≠ c) : AtMost c 0 (deactivate d w) := .ite (atMost_call h _) (.pure c _)

theorem atMost_four (h : d ≠ c) (r : Nat) : AtMost c 0 (fourBcasts d r) :=
  (atMost_call h _).seq ((atMost_call h _).seq ((atMost_call h _).seq (atMost_call h _)))

theorem atMost_shareOwn (h : d ≠ c) : AtMost c 0 (shareOwn d w) := .ite (.pure c _) (atMost_four h 0)

theorem atMost_shareFrom (h : d ≠ c) (l : List Nat) : AtMost c 0 (shareFrom d l w) := by
  unfold shareFrom
  refine .ite (.pure c _) ((atMost_call h _).seq ?_)
  cases l.head?.bind (rankOf d.members) with
  | none => exact .raise c
  | some r => exact atMost_four h r

theorem atMost_creations (n : List Nat) (cs : List (Nat × List Nat)) :
    AtMost c 0 (⟨cs.map fun p => ⟨.create d p.2 p.1, .make (n ++ [1, p.1])⟩, some ()⟩ : Run Unit) := by
  unfold AtMost callsOn
  rw [Nat.le_zero, List.countP_eq_zero]
  intro o ho
  obtain ⟨p, -, rfl⟩ := List.mem_map.1 ho
  simp

/-- At most four whatever the communicator is. -/
theorem atMost_shareOwn_four : AtMost c 4 (shareOwn d w) := by
  unfold shareOwn
  split
  · exact Nat.zero_le _
  · exact List.countP_le_length

/-! ## Other lines -/

variable {n : List Nat} {j k : Nat}

theorem ne_of_name (hn : n.head? = some j) (hc : c.name.head? = some k) (hjk : j ≠ k) (m g : List Nat) :
    (⟨n ++ m, g⟩ : Comm) ≠ c := by
  rintro rfl
  cases n with
  | nil => cases hn
  | cons a n =>
    simp only [List.cons_append, List.head?_cons, Option.some.injEq] at hn hc
    omega

theorem atMost_inner (hn : ∀ g, (⟨n ++ [0], g⟩ : Comm) ≠ c) (ranks shape : List Nat) :
    AtMost c 0 (inner d n ranks shape w) := by
  unfold inner
  refine (atMost_inclusive _ _).then fun b hb => ?_
  have hbc : b ≠ c := by
    have := (inclusive_res hb).1
    obtain ⟨bn, bm⟩ := b
    simp only at this
    subst this
    exact hn bm
  exact (atMost_cartesian hbc _ _).seq (atMost_deactivate hbc)

theorem atMost_pair (hn : ∀ m g, (⟨n ++ m, g⟩ : Comm) ≠ c) (Px Py : CPart) (run : Nat → Res SendRecv) :
    AtMost c 0 (pairPartitions d n Px Py run w) := by
  unfold pairPartitions
  refine .ite (.pure c _) ((atMost_union _ _ _).then fun U _ => ?_)
  have hc := hn [0] U.members
  refine (atMost_shareFrom hc _).seq ((atMost_shareFrom hc _).seq ?_)
  cases run w with
  | value sr =>
    exact (atMost_call hc _).seq ((atMost_call hc _).seq ((atMost_creations _ _).seq (atMost_deactivate hc)))
  | raises => exact .raise c
  | returnsNone => exact .raise c

theorem atMost_recast {Px Py Pw : CPart} (hx : Px.comm ≠ c) (hy : Py.comm ≠ c) (ones : Bool) :
    AtMost c 0 (recast n ones Px Py Pw w) := by
  unfold recast
  have h2 : AtMost c 0 (cartesian Py.comm (n ++ [3]) (castYShape Py.cart.shape) w) := atMost_cartesian hy _ _
  have h1 := (atMost_cartesian (w := w) hx (n ++ [2]) (castXShape Px.cart.shape)).seq
    (AtMost.ite (p := w ∈ Py.cart.members) (.ite (p := alignedY ones Py.cart.shape Pw.cart.shape = true) h2
      (AtMost.raising (f := fun _ : Unit => cartesian Py.comm (n ++ [3]) (castYShape Py.cart.shape) w))) h2)
  exact .ite (.ite h1 .raising) h1

/-- A line makes no calls on the communicators of other lines, unless it is given them. -/
theorem atMost_line (l : Line) (hc : c.name.head? = some k) (hjk : j ≠ k) (hw : d.name = [])
    (hg : ∀ P ∈ l.given, P.name.head? ≠ some k) : AtMost c 0 (l.run d [j] w) := by
  have hn : ∀ m g, (⟨[j] ++ m, g⟩ : Comm) ≠ c := fun m g => ne_of_name (n := [j]) rfl hc hjk m g
  have hn' : ∀ i m g, (⟨([j] ++ [i]) ++ m, g⟩ : Comm) ≠ c := fun i m g => by
    rw [List.append_assoc]
    exact hn _ g
  have hd : d ≠ c := by
    rintro rfl
    rw [hw] at hc
    cases hc
  have hP : ∀ P ∈ l.given, P.comm ≠ c := by
    rintro P hm rfl
    exact hg P hm hc
  cases l with
  | partition ranks shape => exact atMost_inner (hn [0]) _ _
  | repartition Px Py =>
    show AtMost c 0 (newRepartition d [j] Px Py w)
    unfold newRepartition
    refine .ite (.pure c _) ((atMost_union _ _ _).then fun U _ => ?_)
    have hU := hn [0] U.members
    refine .ite (.pure c _) ((atMost_shareFrom hU _).seq ((atMost_shareFrom hU _).seq ?_))
    exact .ite .raising ((atMost_call hU _).seq (atMost_call hU _))
  | broadcast Px Py ts td => exact .ite (.pure c _) (atMost_pair hn Px Py _)
  | sumReduce Px Py ts td => exact .ite (.pure c _) (atMost_pair hn Px Py _)
  | allReduce P axes =>
    show AtMost c 0 (allReduceSetup [j] P axes w)
    unfold allReduceSetup
    refine .ite (.pure c _) (.ite (.pure c _) ?_)
    cases allreductionPartition P.cart axes w with
    | value C =>
      exact (atMost_create _ _ _).seq ((atMost_cartesian (hn [0] C.members) _ _).seq (atMost_deactivate (hn [0] C.members)))
    | raises => exact .raise c
    | returnsNone => exact .raise c
  | featureConv P =>
    exact .ite (.pure c _) (.ite (.pure c _) (atMost_inner (hn [0]) _ _))
  | channelConv Px Py Pw =>
    show AtMost c 0 (newChannelConv d [j] Px Py Pw w)
    unfold newChannelConv
    refine .ite (.pure c _) ((atMost_union _ _ _).then fun T _ => (atMost_union _ _ _).then fun U _ => ?_)
    refine (atMost_shareOwn (hn [1] _)).seq ((atMost_deactivate (hn [0] _)).seq ((atMost_deactivate (hn [1] _)).seq ?_))
    refine .ite .raising ?_
    exact atMost_recast (hP Px (by simp [Line.given])) (hP Py (by simp [Line.given])) _
  | generalConv Px Py Pw =>
    show AtMost c 0 (newGeneralConv d [j] Px Py Pw w)
    unfold newGeneralConv
    refine .ite (.pure c _) ((atMost_union _ _ _).then fun T _ => (atMost_union _ _ _).then fun U _ => ?_)
    have hs := atMost_shareOwn (w := w) (hn [1] U.members)
    refine (atMost_deactivate (hn [0] _)).seq (hs.seq ?_)
    refine .ite .raising ?_
    refine (atMost_recast (hP Px (by simp [Line.given])) (hP Py (by simp [Line.given])) _).seq ?_
    have h4 := hs.seq (hs.seq (hs.seq hs))
    refine .ite (.pure c _) (.ite (AtMost.seq ?_ h4) h4)
    exact (atMost_inner (hn' 4 [0]) _ _).seq ((atMost_inner (hn' 5 [0]) _ _).seq (atMost_inner (hn' 6 [0]) _ _))
  | loss P => exact atMost_inner (hn [0]) _ _
  | norm P =>
    exact .ite (.raise c) (.ite (.raise c) (atMost_inner (hn [0]) _ _))

theorem atMost_script (ls : List Line) (i : Nat) (hc : c.name.head? = some k) (hk : k < i ∨ i + ls.length ≤ k)
    (hw : d.name = []) (hg : ∀ l ∈ ls, ∀ P ∈ l.given, P.name.head? ≠ some k) : AtMost c 0 (script d i ls w) := by
  induction ls generalizing i with
  | nil => exact .pure c _
  | cons l ls ih =>
    simp only [List.length_cons] at hk
    exact (atMost_line l hc (by omega) hw (hg l (by simp))).seq (ih (i + 1) (by omega) fun l hl => hg l (by simp [hl]))

end

/-! ## Numbers of calls -/

theorem number_mem (seen : List Chan) (a b : List Op) (o : Op) :
    (o, seen.count o.chan + a.countP fun p => decide (p.chan = o.chan)) ∈ numberFrom seen (a ++ o :: b) := by
  induction a generalizing seen with
  | nil => exact List.mem_cons_self
  | cons p a ih =>
    refine List.mem_cons_of_mem _ ?_
    have := ih (p.chan :: seen)
    rw [List.countP_cons]
    rw [List.count_cons] at this
    by_cases h : p.chan = o.chan
    · simp only [h, beq_self_eq_true, if_true, decide_true] at this ⊢
      rw [show seen.count o.chan + (a.countP (fun p => decide (p.chan = o.chan)) + 1) =
        seen.count o.chan + 1 + a.countP fun p => decide (p.chan = o.chan) by omega]
      exact this
    · simpa [h] using this

theorem number_lt {seen : List Chan} {ops : List Op} {o : Op} {m : Nat} (h : (o, m) ∈ numberFrom seen ops) :
    m < seen.count o.chan + ops.countP fun p => decide (p.chan = o.chan) := by
  induction ops generalizing seen with
  | nil => cases h
  | cons p ops ih =>
    rw [List.countP_cons]
    rcases List.mem_cons.1 h with e | h
    · cases e
      simp
    · have := ih h
      rw [List.count_cons] at this
      by_cases e : p.chan = o.chan
      · simp [e] at this ⊢; omega
      · simp [e] at this ⊢; omega

theorem bind_none {r : Run α} (h : r.res = none) (f : α → Run β) : r >>= f = ⟨r.ops, none⟩ := by
  show (match r.res with
    | none => (⟨r.ops, none⟩ : Run β)
    | some a => ⟨r.ops ++ (f a).ops, (f a).res⟩) = _
  rw [h]

theorem script_append (d : Comm) (i : Nat) (a b : List Line) (w : Nat) (h : (script d i a w).res = some ()) :
    (script d i (a ++ b) w).ops = (script d i a w).ops ++ (script d (i + a.length) b w).ops := by
  induction a generalizing i with
  | nil => rfl
  | cons l a ih =>
    have hl : (l.run d [i] w).res = some () := by
      rcases hr : (l.run d [i] w).res with _ | u
      · have e : (script d i (l :: a) w).res = none := by
          exact congrArg Run.res (bind_none hr _)
        rw [e] at h
        cases h
      · rfl
    have e1 : ∀ q, script d i (l :: q) w = ⟨(l.run d [i] w).ops ++ (script d (i + 1) q w).ops, (script d (i + 1) q w).res⟩ :=
      fun q => bind_eq hl _
    rw [List.cons_append, e1, e1]
    rw [e1] at h
    simp only
    rw [ih (i + 1) h, List.append_assoc, List.length_cons, show i + 1 + a.length = i + (a.length + 1) by omega]

/-! ## A lone worker of the weights -/

/-- The worker of the weights makes at most four calls on the communicator of the layer. -/
theorem lone_calls {Px Py Pw : CPart} {world : Comm} {k u : Nat} {V : List Nat} (hu : Pw.cart.members = [u])
    (hx : Px.name.head? ≠ some k) (hy : Py.name.head? ≠ some k) :
    AtMost ⟨[k, 1], V⟩ 4 (newGeneralConv world [k] Px Py Pw u) := by
  have hc : ∀ P : CPart, P.name.head? ≠ some k → P.comm ≠ ⟨[k, 1], V⟩ := by
    intro P hP e
    have : P.name = [k, 1] := congrArg Comm.name e
    rw [this] at hP
    exact hP rfl
  unfold newGeneralConv
  refine .ite (Nat.zero_le _) ?_
  refine (atMost_union _ _ _).bind (m' := 4) fun T _ => (atMost_union _ _ _).bind (m' := 4) fun U _ => ?_
  refine (atMost_deactivate (by simp)).bind (m' := 4) fun _ _ => ?_
  refine atMost_shareOwn_four.bind (m' := 0) fun _ _ => ?_
  refine .ite .raising ?_
  refine (atMost_recast (hc Px hx) (hc Py hy) _).seq ?_
  rw [if_pos ⟨by rw [hu]; exact List.mem_singleton.2 rfl, by rw [hu]; rfl⟩]
  exact .pure _ _

/-- Another worker makes a fifth call, a broadcast from the first worker. -/
theorem other_calls {W : List Nat} {Px Py Pw : CPart} {Po Pi : Nat} {Sp : List Nat} {world : Comm} {k v : Nat}
    (h : ConvShapes W false Px Py Pw Po Pi Sp) (hm : v ∈ workers Px Py Pw) (hv : v ∉ Pw.cart.members)
    (hx : Px.name.head? ≠ some k) (hy : Py.name.head? ≠ some k) :
    ∃ a b, (newGeneralConv world [k] Px Py Pw v).ops = a ++ ⟨.on ⟨[k, 1], workers Px Py Pw⟩, .bcast 0⟩ :: b ∧
      callsOn ⟨[k, 1], workers Px Py Pw⟩ a = 4 := by
  obtain ⟨ρ, e1, e2⟩ := h.unions
  set V := workers Px Py Pw with hV
  have hT : ∀ w ∈ (⟨groupUnion Pw.cart.members Px.cart.members, some ρ⟩ : Part).members, w ∈ V :=
    fun w hw => mem_groupUnion.2 (.inl hw)
  have hU : ∀ w ∈ (⟨V, some ρ⟩ : Part).members, w ∈ V := fun w hw => hw
  have j1 := union_joint (n := [k] ++ [0]) e1 hT world
  have j2 := union_joint (n := [k] ++ [1]) e2 hU world
  obtain ⟨G2, j3⟩ := h.recast_joint [k]
  have jd := deactivate_joint (W := V) (c := ⟨[k] ++ [0], groupUnion Pw.cart.members Px.cart.members⟩) hT
  have hl : ¬ Pw.cart.shape.length < 2 := by rw [h.shw]; simp
  have hs : shareOwn ⟨[k] ++ [1], V⟩ v = fourBcasts ⟨[k] ++ [1], V⟩ 0 := if_neg (not_not.2 hm)
  have hc : ∀ P : CPart, P.name.head? ≠ some k → P.comm ≠ ⟨[k, 1], V⟩ := by
    intro P hP e
    have : P.name = [k, 1] := congrArg Comm.name e
    rw [this] at hP
    exact hP rfl
  have z1 : callsOn ⟨[k, 1], V⟩ (union world ([k] ++ [0]) Pw.part Px.part v).ops = 0 := Nat.le_zero.1 (atMost_union _ _ _)
  have z2 : callsOn ⟨[k, 1], V⟩ (union world ([k] ++ [1]) ⟨groupUnion Pw.cart.members Px.cart.members, some ρ⟩ Py.part v).ops =
    0 := Nat.le_zero.1 (atMost_union _ _ _)
  have z3 : callsOn ⟨[k, 1], V⟩ (deactivate ⟨[k] ++ [0], groupUnion Pw.cart.members Px.cart.members⟩ v).ops = 0 :=
    Nat.le_zero.1 (atMost_deactivate (by simp))
  have z4 : callsOn ⟨[k, 1], V⟩ (recast [k] false Px Py Pw v).ops = 0 :=
    Nat.le_zero.1 (atMost_recast (hc Px hx) (hc Py hy) _)
  have z5 : callsOn ⟨[k, 1], V⟩ (fourBcasts ⟨[k] ++ [1], V⟩ 0).ops = 4 := by
    unfold callsOn fourBcasts
    simp [bind, call]
  refine ⟨(union world ([k] ++ [0]) Pw.part Px.part v).ops ++ ((union world ([k] ++ [1])
    ⟨groupUnion Pw.cart.members Px.cart.members, some ρ⟩ Py.part v).ops ++
    ((deactivate ⟨[k] ++ [0], groupUnion Pw.cart.members Px.cart.members⟩ v).ops ++
      ((fourBcasts ⟨[k] ++ [1], V⟩ 0).ops ++ (recast [k] false Px Py Pw v).ops))), ?_, ?_, ?_⟩
  rotate_left
  · unfold newGeneralConv
    have hm' := mem_workers.1 hm
    rw [if_neg (by tauto), bind_eq (j1.res v hm), bind_eq (j2.res v hm), bind_eq (jd.res v hm)]
    simp only [hs]
    rw [bind_eq (show (fourBcasts ⟨[k] ++ [1], V⟩ 0).res = some () from rfl)]
    simp only [hl, if_false]
    rw [bind_eq (j3.res v hm)]
    simp only [hv, false_and, if_false, List.append_assoc]
    rfl
  · simp only [callsOn_append, z1, z2, z3, z4, z5]

/-- A line that cannot be built: a general convolution with its weights on one worker and data on another. -/
def Line.Lone : Line → Prop
  | .generalConv Px Py Pw => Pw.cart.members.length = 1 ∧
      ((∃ w ∈ Px.cart.members, w ∉ Pw.cart.members) ∨ ∃ w ∈ Py.cart.members, w ∉ Pw.cart.members)
  | _ => False

/-- What the documentation asks of a line: as `Line.Fits`, but the weights of a general convolution may be on one worker
and its data elsewhere. -/
def Line.Documented (W : List Nat) : Line → Prop
  | .generalConv Px Py Pw => ∃ Po Pi Sp, ConvShapes W false Px Py Pw Po Pi Sp
  | l => l.Fits W

theorem Line.fits_iff {W : List Nat} (l : Line) : l.Fits W ↔ l.Documented W ∧ ¬ l.Lone := by
  cases l with
  | generalConv Px Py Pw =>
    show (_ ∧ (_ → _)) ↔ (_ ∧ ¬ (_ ∧ _))
    refine and_congr_right fun _ => ?_
    constructor
    · rintro h ⟨h1, ⟨w, h2, h3⟩ | ⟨w, h2, h3⟩⟩
      · exact h3 ((h h1).1 w h2)
      · exact h3 ((h h1).2 w h2)
    · intro h h1
      exact ⟨fun w hw => by_contra fun hn => h ⟨h1, .inl ⟨w, hw, hn⟩⟩, fun w hw => by_contra fun hn => h ⟨h1, .inr ⟨w, hw, hn⟩⟩⟩
  | _ => exact (and_iff_left id).symm

/-- Partitions given to the lines are made by lines that make partitions, or elsewhere. -/
def Named (ls : List Line) : Prop :=
  ∀ l ∈ ls, ∀ P ∈ l.given, ∀ i l', P.name.head? = some i → ls[i]? = some l' → ∃ ranks shape, l' = .partition ranks shape

/-- C82, negative: in a script of lines as documented, with any such line, some worker never gets to the end, whatever the
schedule. -/
theorem C82_stuck (W : List Nat) (ls : List Line) (h : ∀ l ∈ ls, l.Documented W) (hn : Named ls) (hl : ∃ l ∈ ls, l.Lone) :
    ∃ v ∈ W, ∀ early, Receives (program W ls) early → ∀ n pc,
      Coll.Exec W (program W ls) mem early n (fun _ => 0) pc → pc v < (program W ls v).length := by
  -- the first such line
  obtain ⟨pre, l, post, rfl, hpre, hlone⟩ : ∃ pre l post, ls = pre ++ l :: post ∧ (∀ l ∈ pre, ¬ l.Lone) ∧ l.Lone := by
    clear h hn
    induction ls with
    | nil => obtain ⟨l, hl, -⟩ := hl; cases hl
    | cons a ls ih =>
      by_cases ha : a.Lone
      · exact ⟨[], a, ls, rfl, by simp, ha⟩
      · obtain ⟨l, hl, hll⟩ := hl
        have : l ∈ ls := (List.mem_cons.1 hl).resolve_left fun e => ha (e ▸ hll)
        obtain ⟨pre, l, post, e, h1, h2⟩ := ih ⟨l, this, hll⟩
        refine ⟨a :: pre, l, post, by rw [e]; rfl, fun m hm => ?_, h2⟩
        rcases List.mem_cons.1 hm with rfl | hm
        · exact ha
        · exact h1 m hm
  cases l with
  | generalConv Px Py Pw =>
    obtain ⟨h1, h2⟩ := hlone
    obtain ⟨u, hu⟩ := List.length_eq_one_iff.1 h1
    obtain ⟨v, hvm, hvw⟩ : ∃ v ∈ workers Px Py Pw, v ∉ Pw.cart.members := by
      rcases h2 with ⟨v, h2, h3⟩ | ⟨v, h2, h3⟩
      · exact ⟨v, mem_workers.2 (.inl h2), h3⟩
      · exact ⟨v, mem_workers.2 (.inr (.inl h2)), h3⟩
    obtain ⟨Po, Pi, Sp, hc⟩ : ∃ Po Pi Sp, ConvShapes W false Px Py Pw Po Pi Sp :=
      h (.generalConv Px Py Pw) (by simp)
    have hvW := hc.sub v hvm
    have huW : u ∈ W := hc.sub u (mem_workers.2 (.inr (.inr (by rw [hu]; exact List.mem_singleton.2 rfl))))
    have hget : (pre ++ Line.generalConv Px Py Pw :: post)[pre.length]? = some (.generalConv Px Py Pw) := by simp
    have hg : ∀ l ∈ pre ++ Line.generalConv Px Py Pw :: post, ∀ P ∈ l.given, P.name.head? ≠ some pre.length := by
      intro l hl P hP e
      obtain ⟨r, s, he⟩ := hn l hl P hP _ _ e hget
      cases he
    have hx := hg _ (show Line.generalConv Px Py Pw ∈ _ by simp) Px (by simp [Line.given])
    have hy := hg _ (show Line.generalConv Px Py Pw ∈ _ by simp) Py (by simp [Line.given])
    let c : Comm := ⟨[pre.length, 1], workers Px Py Pw⟩
    have hcn : c.name.head? = some pre.length := rfl
    obtain ⟨G, hG⟩ := script_joint (W := W) (ls := pre) (fun l hl =>
      (Line.fits_iff l).2 ⟨h l (by simp [hl]), hpre l hl⟩) 0
    have hpre0 : ∀ w, callsOn c (script ⟨[], W⟩ 0 pre w).ops = 0 := fun w =>
      Nat.le_zero.1 (atMost_script pre 0 hcn (by omega) rfl fun l hl => hg l (by simp [hl]))
    have hpost0 : ∀ w, AtMost c 0 (script ⟨[], W⟩ (pre.length + 1) post w) := fun w =>
      atMost_script post _ hcn (by omega) rfl fun l hl => hg l (by simp [hl])
    have hops : ∀ w ∈ W, (script ⟨[], W⟩ 0 (pre ++ Line.generalConv Px Py Pw :: post) w).ops =
        (script ⟨[], W⟩ 0 pre w).ops ++ (newGeneralConv ⟨[], W⟩ [pre.length] Px Py Pw w >>= fun _ =>
          script ⟨[], W⟩ (pre.length + 1) post w).ops := by
      intro w hw
      rw [script_append _ _ _ _ _ (hG.res w hw), Nat.zero_add]
      rfl
    refine ⟨v, hvW, ?_⟩
    intro early he n pc hx'
    -- the worker of the weights makes four calls
    have hno : Coll.Instr.post (⟨.on c, .bcast 0⟩, 4) ∉ program W (pre ++ Line.generalConv Px Py Pw :: post) u := by
      intro hm
      obtain ⟨d, hd, he⟩ := List.mem_flatMap.1 hm
      simp only [List.mem_cons, List.not_mem_nil, or_false, reduceCtorEq] at he
      cases he
      have hlt := number_lt hd
      rw [List.count_nil, Nat.zero_add, hops u huW] at hlt
      have e1 : callsOn c ((script ⟨[], W⟩ 0 pre u).ops ++ (newGeneralConv ⟨[], W⟩ [pre.length] Px Py Pw u >>= fun _ =>
          script ⟨[], W⟩ (pre.length + 1) post u).ops) ≤ 4 := by
        rw [callsOn_append, hpre0, Nat.zero_add]
        exact (lone_calls hu hx hy).bind (m' := 0) fun _ _ => hpost0 u
      exact absurd hlt (Nat.not_lt.2 e1)
    -- the other one makes a fifth
    obtain ⟨a, b, hab, ha4⟩ := other_calls (world := ⟨[], W⟩) (k := pre.length) hc hvm hvw hx hy
    have hyes : ∃ b', (script ⟨[], W⟩ 0 (pre ++ Line.generalConv Px Py Pw :: post) v).ops =
        ((script ⟨[], W⟩ 0 pre v).ops ++ a) ++ ⟨.on c, .bcast 0⟩ :: b' := by
      rw [hops v hvW]
      rcases hr : (newGeneralConv ⟨[], W⟩ [pre.length] Px Py Pw v).res with _ | t
      · refine ⟨b, ?_⟩
        rw [bind_none hr, hab, List.append_assoc]
      · refine ⟨b ++ (script ⟨[], W⟩ (pre.length + 1) post v).ops, ?_⟩
        rw [bind_eq hr, hab]
        simp only [List.append_assoc, List.cons_append]
        rfl
    obtain ⟨b', hb'⟩ := hyes
    have hmem : (⟨.on c, .bcast 0⟩, 4) ∈ numberFrom []
        (script ⟨[], W⟩ 0 (pre ++ Line.generalConv Px Py Pw :: post) v).ops := by
      rw [hb']
      have := number_mem [] ((script ⟨[], W⟩ 0 pre v).ops ++ a) b' ⟨.on c, .bcast 0⟩
      have e4 : callsOn c ((script ⟨[], W⟩ 0 pre v).ops ++ a) = 4 := by
        rw [callsOn_append, hpre0, ha4]
      unfold callsOn at e4
      rw [List.count_nil, Nat.zero_add, e4] at this
      exact this
    have hw : Coll.Instr.wait (⟨.on c, .bcast 0⟩, 4) ∈ program W (pre ++ Line.generalConv Px Py Pw :: post) v :=
      List.mem_flatMap.2 ⟨_, hmem, by simp⟩
    obtain ⟨i, hi, hie⟩ := List.getElem_of_mem hw
    have hroot : (workers Px Py Pw)[0]? = some u := by
      unfold workers groupUnion
      rw [hu]
      rfl
    have := never_passes (W := W) (prog := program W (pre ++ Line.generalConv Px Py Pw :: post)) (mem := mem) (early := early)
      (w := v) (u := u) (i := i) (c := (⟨.on c, .bcast 0⟩, 4)) (by rw [List.getElem?_eq_getElem hi, hie])
      (show u ∈ workers Px Py Pw from List.mem_of_getElem? hroot) hno (fun pc hc => by
        obtain ⟨u', hu', hm⟩ := he pc v _ _ _ hc
        have : some u' = some u := by rw [← hu', ← hroot]; rfl
        cases this
        exact hno hm) hx'
    omega
  | _ => exact absurd hlone id

/-- C82, exactly: a script of lines as documented is built, with every library that does not complete receivers of
broadcasts early, iff it has no general convolution with its weights on one worker and data on another. -/
theorem C82_iff (W : List Nat) (hW : W.Nodup) (ls : List Line) (h : ∀ l ∈ ls, l.Documented W) (hn : Named ls)
    (early : (Nat → Nat) → Nat → (Op × Nat) → Prop) (he : Receives (program W ls) early) :
    (∃ n pc, Coll.Exec W (program W ls) mem early n (fun _ => 0) pc ∧ Coll.Finished W (program W ls) pc) ↔
      ∀ l ∈ ls, ¬ l.Lone := by
  constructor
  · rintro ⟨n, pc, hx, hf⟩ l hl hlone
    obtain ⟨v, hv, hs⟩ := C82_stuck W ls h hn ⟨l, hl, hlone⟩
    have := hs early he n pc hx
    have := hf v hv
    omega
  · intro hl
    obtain ⟨-, h2⟩ := C82_terminates_partial W hW ls (fun l hm => (Line.fits_iff l).2 ⟨h l hm, hl l hm⟩) early
    obtain ⟨-, m, pc, hx, hf⟩ := h2 0 _ (.refl _)
    exact ⟨m, pc, hx, hf⟩

/-- A script with a partition, a repartition, a convolution whose weights are on worker 2 and whose data are on workers 0
and 1, and a loss. -/
def exLone : List Line :=
  [.partition [0, 1] [1, 1, 2], .repartition ⟨⟨[0, 1], [1, 1, 2], some 0⟩, [0, 1]⟩ ⟨⟨[2], [1, 1, 1], some 0⟩, [7]⟩,
    .generalConv ⟨⟨[0], [1, 1, 1], some 0⟩, [8]⟩ ⟨⟨[1], [1, 1, 1], some 0⟩, [9]⟩ ⟨⟨[2], [1, 1, 1], some 0⟩, [7]⟩,
    .loss ⟨⟨[0, 1, 2], [3], some 0⟩, [10]⟩]

example (early : (Nat → Nat) → Nat → (Op × Nat) → Prop) (he : Receives (program [0, 1, 2] exLone) early) :
    ¬ ∃ n pc, Coll.Exec [0, 1, 2] (program [0, 1, 2] exLone) mem early n (fun _ => 0) pc ∧
      Coll.Finished [0, 1, 2] (program [0, 1, 2] exLone) pc := by
  rw [C82_iff [0, 1, 2] (by decide) exLone ?_ ?_ early he]
  · intro h
    exact h (exLone[2]'(by decide)) (List.getElem_mem _) ⟨rfl, .inl ⟨0, by decide, by decide⟩⟩
  · intro l hl
    simp only [exLone, List.mem_cons, List.not_mem_nil, or_false] at hl
    rcases hl with rfl | rfl | rfl | rfl
    · show _ ∧ _ ∧ _ ∧ _
      decide
    · exact ⟨placed_of (by decide) (by decide) (by decide) (by decide), placed_of (by decide) (by decide) (by decide) (by decide),
        ⟨0, rfl, rfl⟩, rfl⟩
    · exact ⟨1, 1, [1], placed_of (by decide) (by decide) (by decide) (by decide),
        placed_of (by decide) (by decide) (by decide) (by decide), placed_of (by decide) (by decide) (by decide) (by decide),
        rfl, rfl, rfl, ⟨0, rfl, rfl, rfl⟩, fun h => by cases h⟩
    · exact ⟨placed_of (by decide) (by decide) (by decide) (by decide), by decide⟩
  · intro l hl P hP i l' hi hl'
    simp only [exLone, List.mem_cons, List.not_mem_nil, or_false] at hl
    have : i = 0 ∨ 7 ≤ i := by
      rcases hl with rfl | rfl | rfl | rfl <;> simp only [Line.given, List.mem_cons, List.not_mem_nil, or_false] at hP
      · rcases hP with rfl | rfl <;> · simp only [List.head?_cons, Option.some.injEq] at hi; omega
      · rcases hP with rfl | rfl | rfl <;> · simp only [List.head?_cons, Option.some.injEq] at hi; omega
      · subst hP; simp only [List.head?_cons, Option.some.injEq] at hi; omega
    rcases this with rfl | h7
    · cases hl'
      exact ⟨_, _, rfl⟩
    · rw [List.getElem?_eq_none (by show 4 ≤ i; omega)] at hl'
      cases hl'

end Verif.Build
