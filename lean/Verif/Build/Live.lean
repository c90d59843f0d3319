import Verif.Build.Lines

/-!
# Communicators are used between their creation and their release

Specification: a worker holds communicators; it can use only those it holds.
-/

namespace Verif.Build

/-- What a worker holds after a call, if it held `live` before; `none` if it does not hold the communicator it uses. -/
def after (live : List Comm) (o : Op) : Option (List Comm) :=
  match o.chan, o.kind with
  | .create c g _, .make n => if c ∈ live then some (⟨n, g⟩ :: live) else none
  | .on c, .cart _ n => if c ∈ live then some (⟨n, c.members⟩ :: live) else none
  | .on c, .free => if c ∈ live then some (live.filter fun d => d ≠ c) else none
  | .on c, .allgather => if c ∈ live then some live else none
  | .on c, .bcast _ => if c ∈ live then some live else none
  | _, _ => none

/-- The same for a list of calls. -/
def lives : List Comm → List Op → Option (List Comm)
  | L, [] => some L
  | L, o :: os => (after L o).bind fun L' => lives L' os

theorem lives_append (L : List Comm) (a b : List Op) : lives L (a ++ b) = (lives L a).bind fun L' => lives L' b := by
  induction a generalizing L with
  | nil => rfl
  | cons o a ih =>
    show (after L o).bind _ = ((after L o).bind _).bind _
    cases after L o with
    | none => rfl
    | some L' => exact ih L'

/-- What worker `w` holds in line `k`, if it held `L0` before: `L0`, those in `N` of which it is a member, and others made
in this line. -/
structure Held (w k : Nat) (L0 N L : List Comm) : Prop where
  old : ∀ c ∈ L0, c ∈ L
  new : ∀ c ∈ L, c ∈ L0 ∨ c.name.head? = some k
  own : ∀ c ∈ N, w ∈ c.members → c ∈ L

/-- The communicator can be used by `w` if it is a member. -/
def Avail (w : Nat) (L0 N : List Comm) (c : Comm) : Prop := w ∈ c.members → c ∈ L0 ∨ c ∈ N

theorem Held.avail {w k : Nat} {L0 N L : List Comm} (h : Held w k L0 N L) {c : Comm} (hc : Avail w L0 N c)
    (hw : w ∈ c.members) : c ∈ L := by
  rcases hc hw with h' | h'
  · exact h.old c h'
  · exact h.own c h' hw

/-- The calls of `r` use what is held, and afterwards `N' a` are held too; `a` is the result. -/
def Keeps {α : Type} (w k : Nat) (L0 N : List Comm) (r : Run α) (N' : α → List Comm) : Prop :=
  ∀ L, Held w k L0 N L → ∃ L', lives L r.ops = some L' ∧ ∀ a, r.res = some a → Held w k L0 (N' a) L'

variable {α β : Type} {w k : Nat} {L0 N : List Comm}

theorem Keeps.pure (a : α) : Keeps w k L0 N (Pure.pure a : Run α) fun _ => N := fun L h => ⟨L, rfl, fun _ _ => h⟩

theorem Keeps.raise {N' : α → List Comm} : Keeps w k L0 N (raise : Run α) N' :=
  fun L _ => ⟨L, rfl, fun _ h => by cases h⟩

theorem Keeps.bind {r : Run α} {f : α → Run β} {N' : α → List Comm} {N'' : β → List Comm} (h1 : Keeps w k L0 N r N')
    (h2 : ∀ a, r.res = some a → Keeps w k L0 (N' a) (f a) N'') : Keeps w k L0 N (r >>= f) N'' := by
  intro L hL
  obtain ⟨L1, e1, g1⟩ := h1 L hL
  show ∃ L', lives L (match r.res with | none => (⟨r.ops, none⟩ : Run β) | some a => ⟨r.ops ++ (f a).ops, (f a).res⟩).ops
    = some L' ∧ _
  rcases hr : r.res with _ | a
  · refine ⟨L1, e1, fun b hb => ?_⟩
    have : (r >>= f).res = none := by
      show (match r.res with | none => (⟨r.ops, none⟩ : Run β) | some a => ⟨r.ops ++ (f a).ops, (f a).res⟩).res = none
      rw [hr]
    rw [this] at hb
    cases hb
  · obtain ⟨L2, e2, g2⟩ := h2 a hr L1 (g1 a hr)
    refine ⟨L2, ?_, fun b hb => g2 b ?_⟩
    · show lives L (r.ops ++ (f a).ops) = some L2
      rw [lives_append, e1]
      exact e2
    · have : (r >>= f).res = (f a).res := by
        show (match r.res with | none => (⟨r.ops, none⟩ : Run β) | some a => ⟨r.ops ++ (f a).ops, (f a).res⟩).res = _
        rw [hr]
      rw [← this]
      exact hb

theorem Keeps.seq {r : Run Unit} {s : Run β} {N1 : List Comm} {N'' : β → List Comm}
    (h1 : Keeps w k L0 N r fun _ => N1) (h2 : Keeps w k L0 N1 s N'') : Keeps w k L0 N (r >>= fun _ => s) N'' :=
  h1.bind fun _ _ => h2

theorem Keeps.mono {r : Run α} {N' N'' : α → List Comm} (h : Keeps w k L0 N r N') (hs : ∀ a, ∀ c ∈ N'' a, c ∈ N' a) :
    Keeps w k L0 N r N'' := fun L hL => by
  obtain ⟨L', e, g⟩ := h L hL
  exact ⟨L', e, fun a ha => ⟨(g a ha).old, (g a ha).new, fun c hc => (g a ha).own c (hs a c hc)⟩⟩

/-! ## Calls -/

theorem call_lives (L : List Comm) (c : Chan) (kd : Kind) : lives L (call c kd).ops = after L ⟨c, kd⟩ := by
  show (after L ⟨c, kd⟩).bind _ = _
  cases after L ⟨c, kd⟩ <;> rfl

theorem keeps_call {c : Comm} {kd : Kind} (hw : w ∈ c.members) (hc : Avail w L0 N c)
    (hk : kd = .allgather ∨ ∃ r, kd = .bcast r) : Keeps w k L0 N (call (.on c) kd) fun _ => N := by
  intro L hL
  refine ⟨L, ?_, fun _ _ => hL⟩
  rw [call_lives]
  rcases hk with rfl | ⟨r, rfl⟩
  · exact if_pos (hL.avail hc hw)
  · exact if_pos (hL.avail hc hw)

theorem Held.cons {N L : List Comm} (h : Held w k L0 N L) {c : Comm} (hc : c.name.head? = some k) :
    Held w k L0 (c :: N) (c :: L) where
  old d hd := List.mem_cons_of_mem _ (h.old d hd)
  new d hd := by
    rcases List.mem_cons.1 hd with rfl | hd
    · exact Or.inr hc
    · exact h.new d hd
  own d hd hw := by
    rcases List.mem_cons.1 hd with rfl | hd
    · exact List.mem_cons_self
    · exact List.mem_cons_of_mem _ (h.own d hd hw)

theorem keeps_create {c : Comm} {g n : List Nat} {t : Nat} (hw : w ∈ c.members) (hc : Avail w L0 N c)
    (hn : n.head? = some k) : Keeps w k L0 N (call (.create c g t) (.make n)) fun _ => ⟨n, g⟩ :: N := by
  intro L hL
  refine ⟨⟨n, g⟩ :: L, ?_, fun _ _ => hL.cons hn⟩
  rw [call_lives]
  exact if_pos (hL.avail hc hw)

theorem keeps_cart {c : Comm} {s n : List Nat} (hw : w ∈ c.members) (hc : Avail w L0 N c)
    (hn : n.head? = some k) : Keeps w k L0 N (call (.on c) (.cart s n)) fun _ => ⟨n, c.members⟩ :: N := by
  intro L hL
  refine ⟨⟨n, c.members⟩ :: L, ?_, fun _ _ => hL.cons hn⟩
  rw [call_lives]
  exact if_pos (hL.avail hc hw)

theorem keeps_deactivate {c : Comm} (hc : c ∈ N) (hf : c ∉ L0) :
    Keeps w k L0 N (deactivate c w) fun _ => N.filter fun d => d ≠ c := by
  unfold deactivate
  by_cases hw : w ∈ c.members
  · rw [if_pos hw]
    intro L hL
    refine ⟨L.filter fun d => d ≠ c, ?_, fun _ _ => ⟨?_, ?_, ?_⟩⟩
    · rw [call_lives]
      exact if_pos (hL.own c hc hw)
    · exact fun d hd => List.mem_filter.2 ⟨hL.old d hd, by
        simp only [ne_eq, decide_not, Bool.not_eq_eq_eq_not, Bool.not_true, decide_eq_false_iff_not]
        rintro rfl
        exact hf hd⟩
    · exact fun d hd => hL.new d (List.mem_filter.1 hd).1
    · intro d hd hwd
      obtain ⟨h1, h2⟩ := List.mem_filter.1 hd
      exact List.mem_filter.2 ⟨hL.own d h1 hwd, h2⟩
  · rw [if_neg hw]
    exact (Keeps.pure ()).mono fun _ d hd => (List.mem_filter.1 hd).1

/-! ## Partitions -/

theorem keeps_inclusive {c : Comm} {n ranks : List Nat} (hc : Avail w L0 N c) (hn : n.head? = some k) :
    Keeps w k L0 N (inclusive c n ranks w) fun b => b :: N := by
  unfold inclusive
  cases groupIncl c.members ranks with
  | none => exact Keeps.raise
  | some g =>
    show Keeps w k L0 N (if w ∉ c.members then _ else _) _
    by_cases hw : w ∈ c.members
    · rw [if_neg (not_not.2 hw)]
      by_cases hg : w ∈ g
      · rw [if_pos hg]
        refine (keeps_create hw hc hn).bind fun _ _ => ?_
        intro L hL
        refine ⟨L, rfl, fun a ha => ?_⟩
        cases ha
        exact hL
      · rw [if_neg hg]
        intro L hL
        refine ⟨L, rfl, fun a ha => ?_⟩
        cases ha
        exact ⟨hL.old, hL.new, fun d hd hwd => by
          rcases List.mem_cons.1 hd with rfl | hd
          · exact absurd hwd hg
          · exact hL.own d hd hwd⟩
    · rw [if_pos hw]
      exact Keeps.raise

theorem inclusive_res {c : Comm} {n ranks : List Nat} {b : Comm} (h : (inclusive c n ranks w).res = some b) :
    b.name = n ∧ groupIncl c.members ranks = some b.members := by
  unfold inclusive at h
  cases hg : groupIncl c.members ranks with
  | none => rw [hg] at h; cases h
  | some g =>
    rw [hg] at h
    dsimp only at h
    split at h
    · cases h
    · split at h
      · cases h; exact ⟨rfl, rfl⟩
      · cases h; exact ⟨rfl, rfl⟩

theorem keeps_union {world : Comm} {n : List Nat} {P Q : Part} (hc : world ∈ L0) (hn : n.head? = some k) :
    Keeps w k L0 N (union world n P Q w) fun U => ⟨n, U.members⟩ :: N := by
  unfold union
  cases createUnion P Q with
  | none => exact Keeps.raise
  | some U =>
    show Keeps w k L0 N (if w ∈ U.members then _ else _) _
    by_cases hg : w ∈ U.members
    · rw [if_pos hg]
      have hh : Keeps w k L0 N (call (.create world U.members 0) (.make n)) fun _ => ⟨n, U.members⟩ :: N := by
        intro L hL
        refine ⟨_, ?_, fun _ _ => hL.cons hn⟩
        rw [call_lives]
        exact if_pos (hL.old _ hc)
      refine hh.bind fun _ _ => ?_
      intro L hL
      refine ⟨L, rfl, fun a ha => ?_⟩
      cases ha
      exact hL
    · rw [if_neg hg]
      intro L hL
      refine ⟨L, rfl, fun a ha => ?_⟩
      cases ha
      exact ⟨hL.old, hL.new, fun d hd hwd => by
        rcases List.mem_cons.1 hd with rfl | hd
        · exact absurd hwd hg
        · exact hL.own d hd hwd⟩

theorem keeps_cartesian {c : Comm} {n shape : List Nat} (hc : Avail w L0 N c) (hn : n.head? = some k) :
    Keeps w k L0 N (cartesian c n shape w) fun _ => ⟨n, c.members⟩ :: N := by
  unfold cartesian
  by_cases hw : w ∈ c.members
  · rw [if_pos hw]
    refine (keeps_cart hw hc hn).seq ?_
    cases createCartesian ⟨c.members, none⟩ shape with
    | none => exact Keeps.raise
    | some _ => exact Keeps.pure ()
  · rw [if_neg hw]
    intro L hL
    refine ⟨L, rfl, fun a ha => ⟨hL.old, hL.new, fun d hd hwd => ?_⟩⟩
    rcases List.mem_cons.1 hd with rfl | hd
    · exact absurd hwd hw
    · exact hL.own d hd hwd

theorem keeps_four {c : Comm} (r : Nat) (hw : w ∈ c.members) (hc : Avail w L0 N c) :
    Keeps w k L0 N (fourBcasts c r) fun _ => N := by
  have h : Keeps w k L0 N (call (.on c) (.bcast r)) fun _ => N := keeps_call hw hc (Or.inr ⟨r, rfl⟩)
  exact h.seq (h.seq (h.seq h))

theorem keeps_shareOwn {c : Comm} (hc : Avail w L0 N c) : Keeps w k L0 N (shareOwn c w) fun _ => N := by
  unfold shareOwn
  by_cases hw : w ∈ c.members
  · rw [if_neg (not_not.2 hw)]
    exact keeps_four 0 hw hc
  · rw [if_pos hw]
    exact Keeps.pure ()

theorem keeps_shareFrom {c : Comm} {d : List Nat} (hc : Avail w L0 N c) :
    Keeps w k L0 N (shareFrom c d w) fun _ => N := by
  unfold shareFrom
  by_cases hw : w ∈ c.members
  · rw [if_neg (not_not.2 hw)]
    refine (keeps_call hw hc (Or.inl rfl)).seq ?_
    cases d.head?.bind (rankOf c.members) with
    | none => exact Keeps.raise
    | some r => exact keeps_four r hw hc
  · rw [if_pos hw]
    exact Keeps.pure ()

theorem keeps_inner {c : Comm} {n ranks shape : List Nat} (hc : Avail w L0 N c) (hn : n.head? = some k)
    (hf : ∀ d ∈ L0, d.name.head? ≠ some k) (hN : ∀ d ∈ N, d.name ≠ n ++ [0]) :
    Keeps w k L0 N (inner c n ranks shape w) fun _ =>
      ((groupIncl c.members ranks).toList.map fun g => (⟨n ++ [1], g⟩ : Comm)) ++ N := by
  have hn' : ∀ m, (n ++ m).head? = some k := fun m => by
    cases n with
    | nil => cases hn
    | cons a n => exact hn
  unfold inner
  refine (keeps_inclusive hc (hn' [0])).bind fun b hb => ?_
  obtain ⟨eb, em⟩ := inclusive_res hb
  refine (keeps_cartesian (fun _ => Or.inr List.mem_cons_self) (hn' [1])).seq ?_
  refine (keeps_deactivate (List.mem_cons_of_mem _ List.mem_cons_self) fun h => hf b h (by rw [eb]; exact hn' _)).mono ?_
  intro _ d hd
  rw [em] at hd
  refine List.mem_filter.2 ⟨?_, ?_⟩
  · rcases List.mem_append.1 hd with h | h
    · obtain rfl : d = ⟨n ++ [1], b.members⟩ := by simpa using h
      exact List.mem_cons_self
    · simp [h]
  · simp only [ne_eq, decide_not, Bool.not_eq_eq_eq_not, Bool.not_true, decide_eq_false_iff_not]
    rintro rfl
    rcases List.mem_append.1 hd with h | h
    · have : d.name = n ++ [1] := by
        have h' : d = ⟨n ++ [1], d.members⟩ := by simpa using h
        rw [h']
      rw [eb] at this
      simp at this
    · exact hN _ h eb

/-! ## Layers -/

theorem keeps_creations {c : Comm} {n : List Nat} (hw : w ∈ c.members) (hc : c ∈ N) (hn : n.head? = some k)
    (cs : List (Nat × List Nat)) :
    Keeps w k L0 N (⟨cs.map fun p => ⟨.create c p.2 p.1, .make (n ++ [1, p.1])⟩, some ()⟩ : Run Unit) fun _ => N := by
  have hn' : ∀ m, (n ++ m).head? = some k := fun m => by
    cases n with
    | nil => cases hn
    | cons a n => exact hn
  intro L hL
  have key : ∀ L, Held w k L0 N L → ∃ L', lives L (cs.map fun p => ⟨.create c p.2 p.1, .make (n ++ [1, p.1])⟩) = some L' ∧
      Held w k L0 N L' := by
    induction cs with
    | nil => exact fun L hL => ⟨L, rfl, hL⟩
    | cons p cs ih =>
      intro L hL
      obtain ⟨L', e, h'⟩ := ih (⟨n ++ [1, p.1], p.2⟩ :: L) ⟨(hL.cons (hn' _)).old, (hL.cons (hn' _)).new,
        fun d hd hwd => List.mem_cons_of_mem _ (hL.own d hd hwd)⟩
      refine ⟨L', ?_, h'⟩
      rw [List.map_cons]
      show (after L _).bind _ = _
      rw [show after L ⟨.create c p.2 p.1, .make (n ++ [1, p.1])⟩ = some (⟨n ++ [1, p.1], p.2⟩ :: L) from
        if_pos (hL.own c hc hw)]
      exact e
  obtain ⟨L', e, h'⟩ := key L hL
  exact ⟨L', e, fun _ _ => h'⟩

/-- What the lines need: the partition of all workers and their own, and new names. -/
structure Ready (world : Comm) (w k : Nat) (L0 : List Comm) (given : List CPart) : Prop where
  world : world ∈ L0
  given : ∀ P ∈ given, w ∈ P.cart.members → P.comm ∈ L0
  fresh : ∀ c ∈ L0, c.name.head? ≠ some k

variable {world : Comm}

theorem not_old (hf : ∀ c ∈ L0, c.name.head? ≠ some k) {m g : List Nat} : (⟨k :: m, g⟩ : Comm) ∉ L0 :=
  fun h => hf _ h rfl

theorem keeps_pair {Px Py : CPart} {run : Nat → Res SendRecv} (hr : Ready world w k L0 [Px, Py]) :
    Keeps w k L0 [] (pairPartitions world [k] Px Py run w) fun _ => [] := by
  unfold pairPartitions
  by_cases h0 : w ∉ Px.cart.members ∧ w ∉ Py.cart.members
  · rw [if_pos h0]
    exact Keeps.pure ()
  · rw [if_neg h0]
    refine (keeps_union hr.world rfl).bind fun U hU => ?_
    have hm : w ∈ U.members := by
      unfold union at hU
      cases hc : createUnion Px.part Py.part with
      | none => rw [hc] at hU; cases hU
      | some V =>
        rw [hc] at hU
        dsimp only at hU
        have hV : V = U := by
          split at hU
          · cases hU; rfl
          · cases hU; rfl
        subst hV
        unfold createUnion at hc
        split at hc
        · cases hc
        · cases hc
          show w ∈ groupUnion _ _
          rw [mem_groupUnion]
          by_contra h
          exact h0 ⟨fun h' => h (Or.inl h'), fun h' => h (Or.inr h')⟩
    refine (keeps_shareFrom fun _ => Or.inr List.mem_cons_self).seq ?_
    refine (keeps_shareFrom fun _ => Or.inr List.mem_cons_self).seq ?_
    cases run w with
    | value sr =>
      refine (keeps_call hm (fun _ => Or.inr List.mem_cons_self) (Or.inl rfl)).seq ?_
      refine (keeps_call hm (fun _ => Or.inr List.mem_cons_self) (Or.inl rfl)).seq ?_
      refine (keeps_creations hm List.mem_cons_self rfl _).seq ?_
      exact (keeps_deactivate List.mem_cons_self (not_old hr.fresh)).mono fun _ c hc => by cases hc
    | _ => exact Keeps.raise

theorem Keeps.unless {c : Prop} [Decidable c] {r s : Run α} {N' : α → List Comm} (h1 : c → Keeps w k L0 N r N')
    (h2 : ¬ c → Keeps w k L0 N s N') : Keeps w k L0 N (if c then r else s) N' := by
  by_cases h : c
  · rw [if_pos h]; exact h1 h
  · rw [if_neg h]; exact h2 h

theorem keeps_allReduce {P : CPart} {axes : List Int} (hr : Ready world w k L0 [P]) :
    Keeps w k L0 [] (allReduceSetup [k] P axes w) fun _ => [] := by
  unfold allReduceSetup
  refine Keeps.unless (fun _ => Keeps.pure ()) fun hw => Keeps.unless (fun _ => Keeps.pure ()) fun _ => ?_
  have hw := not_not.1 hw
  cases allreductionPartition P.cart axes w with
  | value C =>
    refine (keeps_create hw (fun h => Or.inl (hr.given P List.mem_cons_self h)) rfl).seq ?_
    refine (keeps_cartesian (fun _ => Or.inr List.mem_cons_self) rfl).seq ?_
    exact (keeps_deactivate (List.mem_cons_of_mem _ List.mem_cons_self) (not_old hr.fresh)).mono fun _ c hc => by cases hc
  | _ => exact Keeps.raise

theorem keeps_repartition {Px Py : CPart} (hr : Ready world w k L0 [Px, Py]) :
    Keeps w k L0 [] (newRepartition world [k] Px Py w) fun _ => [] := by
  unfold newRepartition
  refine Keeps.unless (fun _ => Keeps.pure ()) fun _ => ?_
  refine (keeps_union hr.world rfl).bind fun U _ => ?_
  refine Keeps.unless (fun _ => (Keeps.pure ()).mono fun _ c hc => by cases hc) fun hm => ?_
  have hm : w ∈ U.members := not_not.1 hm
  refine (keeps_shareFrom fun _ => Or.inr List.mem_cons_self).seq ?_
  refine (keeps_shareFrom fun _ => Or.inr List.mem_cons_self).seq ?_
  have h2 : Keeps w k L0 [⟨[k] ++ [0], U.members⟩] (do
      call (.on ⟨[k] ++ [0], U.members⟩) .allgather
      call (.on ⟨[k] ++ [0], U.members⟩) .allgather : Run Unit) fun _ => [] :=
    (keeps_call hm (fun _ => Or.inr List.mem_cons_self) (Or.inl rfl)).seq
      ((keeps_call hm (fun _ => Or.inr List.mem_cons_self) (Or.inl rfl)).mono fun _ c hc => by cases hc)
  by_cases hd : Px.cart.shape.length ≠ Py.cart.shape.length
  · simp only [if_pos hd]
    exact Keeps.raise.bind (N' := fun _ => []) fun _ h => by cases h
  · simp only [if_neg hd]
    exact h2

theorem keeps_inner_in {P : CPart} {ranks shape : List Nat} (hr : Ready world w k L0 [P]) :
    Keeps w k L0 [] (inner P.comm [k] ranks shape w) fun _ => [] :=
  (keeps_inner (fun h => Or.inl (hr.given P List.mem_cons_self h)) rfl hr.fresh fun d hd => by cases hd).mono
    fun _ c hc => by cases hc

theorem keeps_featureConv {P : CPart} (hr : Ready world w k L0 [P]) :
    Keeps w k L0 [] (newFeatureConv [k] P w) fun _ => [] :=
  Keeps.unless (fun _ => Keeps.pure ()) fun _ => Keeps.unless (fun _ => Keeps.pure ()) fun _ => keeps_inner_in hr

theorem keeps_loss {P : CPart} (hr : Ready world w k L0 [P]) :
    Keeps w k L0 [] (newLossLayer [k] P w) fun _ => [] := keeps_inner_in hr

theorem keeps_norm {P : CPart} (hr : Ready world w k L0 [P]) :
    Keeps w k L0 [] (newNorm [k] P w) fun _ => [] :=
  Keeps.unless (fun _ => Keeps.raise) fun _ => Keeps.unless (fun _ => Keeps.raise) fun _ => keeps_inner_in hr

theorem keeps_recast {ones : Bool} {Px Py Pw : CPart} {N : List Comm}
    (hx : w ∈ Px.cart.members → Px.comm ∈ L0) (hy : w ∈ Py.cart.members → Py.comm ∈ L0) :
    Keeps w k L0 N (recast [k] ones Px Py Pw w) fun _ => N := by
  have h2 : Keeps w k L0 N (cartesian Py.comm ([k] ++ [3]) (castYShape Py.cart.shape) w) fun _ => N :=
    (keeps_cartesian (fun h => Or.inl (hy h)) rfl).mono fun _ c hc => List.mem_cons_of_mem _ hc
  have h1 : Keeps w k L0 N (cartesian Px.comm ([k] ++ [2]) (castXShape Px.cart.shape) w) fun _ => N :=
    (keeps_cartesian (fun h => Or.inl (hx h)) rfl).mono fun _ c hc => List.mem_cons_of_mem _ hc
  have chk : ∀ {p q : Prop} [Decidable p] [Decidable q] {s : Run Unit}, Keeps w k L0 N s (fun _ => N) →
      Keeps w k L0 N (if p then (if q then s else (raise : Run Unit) >>= fun _ => s) else s) fun _ => N := fun hs =>
    Keeps.unless (fun _ => Keeps.unless (fun _ => hs) fun _ => Keeps.raise.bind (N' := fun _ => []) fun _ h => by cases h)
      fun _ => hs
  unfold recast
  exact chk (h1.seq (chk h2))

theorem keeps_channelConv {Px Py Pw : CPart} (hr : Ready world w k L0 [Px, Py, Pw]) :
    Keeps w k L0 [] (newChannelConv world [k] Px Py Pw w) fun _ => [] := by
  unfold newChannelConv
  refine Keeps.unless (fun _ => Keeps.pure ()) fun _ => ?_
  refine (keeps_union hr.world rfl).bind fun T _ => ?_
  refine (keeps_union hr.world rfl).bind fun U _ => ?_
  refine (keeps_shareOwn fun _ => Or.inr List.mem_cons_self).seq ?_
  refine (keeps_deactivate (List.mem_cons_of_mem _ List.mem_cons_self) (not_old hr.fresh)).seq ?_
  refine (keeps_deactivate (List.mem_filter.2 ⟨List.mem_cons_self, by simp⟩) (not_old hr.fresh)).seq ?_
  by_cases hl : Pw.cart.shape.length < 2
  · simp only [if_pos hl]
    exact Keeps.raise.bind (N' := fun _ => []) fun _ h => by cases h
  · simp only [if_neg hl]
    exact (keeps_recast (hr.given Px (by simp)) (hr.given Py (by simp))).mono fun _ c hc => by cases hc

theorem keeps_weights {Pw : CPart} {N : List Comm} (hw : w ∈ Pw.cart.members → Pw.comm ∈ L0)
    (hf : ∀ c ∈ L0, c.name.head? ≠ some k) (hN : ∀ d ∈ N, d.name.length = 2) :
    Keeps w k L0 N (weightParts [k] Pw w) fun _ => N := by
  have h : ∀ (i : Nat) (ranks shape : List Nat), Keeps w k L0 N (inner Pw.comm ([k] ++ [i]) ranks shape w) fun _ => N :=
    fun i ranks shape => (keeps_inner (fun h => Or.inl (hw h)) rfl hf fun d hd e => by
      have := hN d hd
      rw [e] at this
      simp at this).mono fun _ c hc => List.mem_append_right _ hc
  exact (h 4 _ _).seq ((h 5 _ _).seq (h 6 _ _))

theorem keeps_generalConv {Px Py Pw : CPart} (hr : Ready world w k L0 [Px, Py, Pw]) :
    Keeps w k L0 [] (newGeneralConv world [k] Px Py Pw w) fun _ => [] := by
  unfold newGeneralConv
  refine Keeps.unless (fun _ => Keeps.pure ()) fun _ => ?_
  refine (keeps_union hr.world rfl).bind fun T _ => ?_
  refine (keeps_union hr.world rfl).bind fun U _ => ?_
  refine (keeps_deactivate (List.mem_cons_of_mem _ List.mem_cons_self) (not_old hr.fresh)).seq ?_
  have hU : (⟨[k] ++ [1], U.members⟩ : Comm) ∈
      [⟨[k] ++ [1], U.members⟩, ⟨[k] ++ [0], T.members⟩].filter fun d => d ≠ (⟨[k] ++ [0], T.members⟩ : Comm) :=
    List.mem_filter.2 ⟨List.mem_cons_self, by simp⟩
  have hs : ∀ {M : List Comm}, (⟨[k] ++ [1], U.members⟩ : Comm) ∈ M →
      Keeps w k L0 M (shareOwn ⟨[k] ++ [1], U.members⟩ w) fun _ => M := fun h => keeps_shareOwn fun _ => Or.inr h
  refine (hs hU).seq ?_
  by_cases hl : Pw.cart.shape.length < 2
  · simp only [if_pos hl]
    exact Keeps.raise.bind (N' := fun _ => []) fun _ h => by cases h
  · simp only [if_neg hl]
    refine (keeps_recast (hr.given Px (by simp)) (hr.given Py (by simp))).seq ?_
    refine Keeps.unless (fun _ => (Keeps.pure ()).mono fun _ c hc => by cases hc) fun _ => ?_
    have h4 := (hs hU).seq ((hs hU).seq ((hs hU).seq (hs hU)))
    refine Keeps.unless (fun _ => ?_) fun _ => h4.mono fun _ c hc => by cases hc
    refine (Keeps.seq (keeps_weights (hr.given Pw (by simp)) hr.fresh fun d hd => ?_) h4).mono fun _ c hc => by cases hc
    have := (List.mem_filter.1 hd).1
    simp only [List.mem_cons, List.not_mem_nil, or_false] at this
    rcases this with rfl | rfl <;> rfl

/-! ## Scripts -/

/-- The partitions a line is given. -/
def Line.given : Line → List CPart
  | .partition _ _ => []
  | .repartition Px Py => [Px, Py]
  | .broadcast Px Py _ _ => [Px, Py]
  | .sumReduce Px Py _ _ => [Px, Py]
  | .allReduce P _ => [P]
  | .featureConv P => [P]
  | .channelConv Px Py Pw => [Px, Py, Pw]
  | .generalConv Px Py Pw => [Px, Py, Pw]
  | .loss P => [P]
  | .norm P => [P]

/-- The communicator of the partition made in line `k`. -/
def Line.made (world : Comm) (k : Nat) : Line → List Comm
  | .partition ranks _ => (groupIncl world.members ranks).toList.map fun g => ⟨[k, 1], g⟩
  | _ => []

theorem keeps_line (l : Line) (hr : Ready world w k L0 l.given) :
    Keeps w k L0 [] (l.run world [k] w) fun _ => l.made world k := by
  cases l with
  | partition ranks shape =>
    exact (keeps_inner (fun _ => Or.inl hr.world) rfl hr.fresh fun d hd => by cases hd).mono
      fun _ c hc => List.mem_append_left _ hc
  | repartition Px Py => exact keeps_repartition hr
  | broadcast Px Py ts td => exact Keeps.unless (fun _ => Keeps.pure ()) fun _ => keeps_pair hr
  | sumReduce Px Py ts td => exact Keeps.unless (fun _ => Keeps.pure ()) fun _ => keeps_pair hr
  | allReduce P axes => exact keeps_allReduce hr
  | featureConv P => exact keeps_featureConv hr
  | channelConv Px Py Pw => exact keeps_channelConv hr
  | generalConv Px Py Pw => exact keeps_generalConv hr
  | loss P => exact keeps_loss hr
  | norm P => exact keeps_norm hr

/-- From line `k` on every line is given partitions among `L0` (what exists before line `k`) or made in the lines since. -/
def Supplied (world : Comm) (w : Nat) : Nat → List Comm → List Line → Prop
  | _, _, [] => True
  | k, L0, l :: ls => (∀ P ∈ l.given, w ∈ P.cart.members → P.comm ∈ L0) ∧
      Supplied world w (k + 1) (l.made world k ++ L0) ls

theorem Supplied.mono {w : Nat} {ls : List Line} {k : Nat} {A B : List Comm} (h : Supplied world w k A ls)
    (hs : ∀ c ∈ A, w ∈ c.members → c ∈ B) : Supplied world w k B ls := by
  induction ls generalizing k A B with
  | nil => trivial
  | cons l ls ih =>
    refine ⟨fun P hP hw => hs _ (h.1 P hP hw) hw, ih h.2 fun c hc hw => ?_⟩
    rcases List.mem_append.1 hc with hc | hc
    · exact List.mem_append_left _ hc
    · exact List.mem_append_right _ (hs c hc hw)

theorem ops_none {r : Run α} {f : α → Run β} (h : r.res = none) : (r >>= f).ops = r.ops := by
  show (match r.res with | none => (⟨r.ops, none⟩ : Run β) | some a => ⟨r.ops ++ (f a).ops, (f a).res⟩).ops = r.ops
  rw [h]

theorem ops_some {r : Run α} {f : α → Run β} {a : α} (h : r.res = some a) : (r >>= f).ops = r.ops ++ (f a).ops := by
  show (match r.res with | none => (⟨r.ops, none⟩ : Run β) | some a => ⟨r.ops ++ (f a).ops, (f a).res⟩).ops = _
  rw [h]

theorem script_lives {w : Nat} (ls : List Line) (k : Nat) (L : List Comm) (hw : world ∈ L)
    (hf : ∀ c ∈ L, ∀ j, k ≤ j → j < k + ls.length → c.name.head? ≠ some j) (hs : Supplied world w k L ls) :
    ∃ L', lives L (script world k ls w).ops = some L' := by
  induction ls generalizing k L with
  | nil => exact ⟨L, rfl⟩
  | cons l ls ih =>
    have hr : Ready world w k L l.given := ⟨hw, hs.1, fun c hc => hf c hc k le_rfl (by simp)⟩
    obtain ⟨L1, e1, g1⟩ := keeps_line l hr L ⟨fun c hc => hc, fun c hc => Or.inl hc, fun c hc => by cases hc⟩
    show ∃ L', lives L (l.run world [k] w >>= fun _ => script world (k + 1) ls w).ops = some L'
    rcases hres : (l.run world [k] w).res with _ | a
    · exact ⟨L1, by rw [ops_none hres]; exact e1⟩
    · have h1 := g1 a hres
      obtain ⟨L2, e2⟩ := ih (k + 1) L1 (h1.old _ hw) (fun c hc j hj hlt => by
          rcases h1.new c hc with h | h
          · exact hf c h j (by omega) (by rw [List.length_cons]; omega)
          · rw [h]
            intro e
            injection e
            omega)
        (hs.2.mono fun c hc hwc => by
          rcases List.mem_append.1 hc with h | h
          · exact h1.own c h hwc
          · exact h1.old c h)
      refine ⟨L2, ?_⟩
      rw [ops_some hres, lives_append, e1]
      exact e2

end Verif.Build
