import Verif.Net.Mods
import Verif.Net.Live

/-!
# Networks: modules that are called again and again

`nn/module.py:37-56, 101-109`: the pre-forward hook of a module does the setup if the module is not set up, or if
`_distdl_input_changed` says so; each worker decides for itself, by comparing the structure of its input with that of the
last setup (`broadcast.py:169-182`, `sum_reduce.py:168-181`, `conv_feature.py:330-343`, `conv_general.py:506-519`,
`pooling.py:241-254`, `repartition.py:313-326`).  Here a worker keeps, for every module, the structure it compares with
and what the setup has found; and it has its parameters, which may change between the calls.
-/

namespace Verif.Net

variable {F β : Type}

/-! ## Local data -/

/-- What a module keeps from its setup. -/
structure Mem where
  /-- `_input_tensor_structure` -/
  key : Info
  /-- structures of the inputs of the other workers -/
  info : Nat → Info
  /-- structure received by a broadcast -/
  str : Info
  /-- an exception was raised -/
  err : Bool

/-- Local data of a worker that calls a network repeatedly. -/
structure LSt (F : Type) where
  /-- the data of the step -/
  b : BSt F
  /-- `θ i p`: parameter `p` of layer `i` -/
  θ : Nat → Nat → Tensor F
  /-- what module `j` keeps, if it is set up -/
  cache : Nat → Option Mem
  /-- the module does its setup in this call -/
  cold : Bool
  /-- an exception was raised in an earlier step -/
  bad : Bool
  /-- the results of the earlier calls -/
  outs : List (Tensor F)
  /-- the losses of the earlier training steps -/
  losses : List (Tensor F)
  /-- `inputs_seen` of layer `i`, a batch norm (`batchnorm.py:57`) -/
  seen : Nat → Nat

/-- The data of the forward pass. -/
def sLens : Lens (LSt F) (NSt F) where
  get c := c.b.s
  set y c := { c with b := { c.b with s := y } }
  get_set _ _ := rfl
  set_get _ := rfl
  set_set _ _ _ := rfl

/-- The data of the step. -/
def bLens : Lens (LSt F) (BSt F) where
  get c := c.b
  set y c := { c with b := y }
  get_set _ _ := rfl
  set_get _ := rfl
  set_set _ _ _ := rfl

/-! ## Programs that depend on a context -/

section
variable {C σ τ μ : Type} {W : List Nat}

/-- The first `n` phases of a program that depends on the context. -/
def family (f : C → Prog τ μ) (n : Nat) : CProg C τ μ := (List.range n).map fun k c w x =>
  match (f c)[k]? with
  | some ph => ph w x
  | none => idlePhase

theorem family_at (f : C → Prog τ μ) {n : Nat} {T : Nat → C} {p : Prog τ μ} (hn : n = p.length)
    (h : ∀ u, List.Forall₂ (fun ph ph' => ph u = ph' u) (f (T u)) p) : (family f n).at T = p := by
  subst hn
  refine List.ext_getElem (by simp [family, CProg.at]) fun k h1 h2 => ?_
  funext u
  have hl := (h u).length_eq
  have hk : k < (f (T u)).length := hl ▸ h2
  have e : ((family f p.length).at T)[k] = fun u x => match (f (T u))[k]? with
      | some ph => ph u x
      | none => idlePhase := by simp [family, CProg.at]
  rw [e, ← show (f (T u))[k] u = p[k] u from List.Forall₂.get (h u) hk h2]
  funext x
  beta_reduce
  rw [List.getElem?_eq_getElem hk]

theorem family_agree {f g : C → Prog τ μ} {n : Nat} (h : ∀ c, Agree W (f c) (g c)) (ctx : σ → C) (L : Lens σ τ) :
    Agree W ((family f n).map (ctxPhase ctx L)) ((family g n).map (ctxPhase ctx L)) := by
  unfold family Agree
  rw [List.map_map, List.map_map, List.forall₂_map_left_iff, List.forall₂_map_right_iff, List.forall₂_same]
  intro k _ w hw
  funext x
  have : (match (f (ctx x))[k]? with | some ph => ph w (L.get x) | none => (idlePhase : Phase τ μ)) =
      match (g (ctx x))[k]? with | some ph => ph w (L.get x) | none => idlePhase := by
    cases e : (f (ctx x))[k]? with
    | some ph =>
      obtain ⟨ph', e', hp⟩ := (h _).get e
      rw [e']
      exact congrFun (hp w hw) _
    | none =>
      cases e' : (g (ctx x))[k]? with
      | none => rfl
      | some ph' =>
        obtain ⟨ph, e2, -⟩ := (h _).symm.get e'
        rw [e] at e2
        cases e2
  simp only [Function.comp, ctxPhase, this]

end

/-! ## A module -/

/-- A piece of a forward pass, for all values of the parameters of its layer. -/
structure CMod (F : Type) where
  key : NSt F → Info
  act : Nat → Bool
  part : Nat → Kept
  setup : CProg (Nat → Tensor F) (NSt F) (NMsg F)
  rest : CProg (Nat → Tensor F) (NSt F) (NMsg F)

/-- The pre-forward hook: is setup needed?  (`nn/module.py:37-56`.)  The data are kept for the backward pass. -/
def checkPhase (j : Nat) (key : NSt F → Info) : Nat → LSt F → Phase (LSt F) (NMsg F) := localPhase fun _ c =>
  { c with
    b := { c.b with tape := c.b.s :: c.b.tape }
    cold := decide ((c.cache j).map Mem.key ≠ some (key c.b.s)) }

/-- A phase of the setup, or nothing. -/
def whenCold (ph : (Nat → Tensor F) → Nat → NSt F → Phase (NSt F) (NMsg F)) :
    Bool × (Nat → Tensor F) → Nat → NSt F → Phase (NSt F) (NMsg F) := fun c w x => if c.1 then ph c.2 w x else idlePhase

/-- What a worker keeps: the structure it compares with, and the part of its data that the setup has found. -/
def keepOf (q : Kept) (key : Info) (x : NSt F) : Mem :=
  ⟨key, if q = .info then x.info else fun _ => noInfo, if q = .str then x.str else noInfo, x.err⟩

/-- The data with what was kept. -/
def useKept (q : Kept) (m : Mem) (x : NSt F) : NSt F :=
  { x with
    info := if q = .info then m.info else x.info
    str := if q = .str then m.str else x.str
    err := x.err || m.err }

/-- The module keeps what its setup has found (`nn/module.py:101-109`), or uses what it has kept.  Workers that do not take
part keep nothing: most modules are not set up on them (`broadcast.py:121-122`, `sum_reduce.py:120-121`,
`conv_general.py:421-424`), and where they are, the setup does nothing more (`conv_feature.py:252-256`,
`pooling.py:165-169`, `repartition.py:149-154`). -/
def keepPhase (j : Nat) (key : NSt F → Info) (act : Nat → Bool) (part : Nat → Kept) : Nat → LSt F → Phase (LSt F) (NMsg F) :=
  localPhase fun w c =>
    if c.cold then
      { c with
        cache := fun q => if q = j ∧ act w = true then some (keepOf (part w) (key c.b.s) c.b.s) else c.cache q
        cold := false }
    else
      match c.cache j with
      | some m => { c with b := { c.b with s := useKept (part w) m c.b.s } }
      | none => c

/-- A call of module `j`, which belongs to layer `i`. -/
def callMod (i j : Nat) (m : CMod F) : Prog (LSt F) (NMsg F) :=
  checkPhase j m.key :: ((m.setup.map whenCold).map (ctxPhase (fun c : LSt F => (c.cold, c.θ i)) sLens) ++
    keepPhase j m.key m.act m.part :: m.rest.map (ctxPhase (fun c : LSt F => c.θ i) sLens))

/-- What the module keeps on a worker. -/
def memOf (m : Mod F) (S : Nat → NSt F) (w : Nat) : Option Mem :=
  if m.act w then some (keepOf (m.part w) (m.key (S w)) (run m.setup S w)) else none

/-- The workers decide alike: where nothing is to be kept nothing is, and either all others see a change, or what they keep
is what setup would find. -/
def Decides (old new : Nat → Option Mem) : Prop :=
  (∀ u, new u = none → old u = none) ∧ ((∀ u m, new u = some m → (old u).map Mem.key ≠ some m.key) ∨ old = new)

/-- With the parameters `T` the piece is `m`. -/
structure Resolves (T : Nat → Nat → Tensor F) (cm : CMod F) (m : Mod F) : Prop where
  key : cm.key = m.key
  act : cm.act = m.act
  part : cm.part = m.part
  setup : cm.setup.at T = m.setup
  rest : cm.rest.at T = m.rest

theorem cold_at (p : CProg (Nat → Tensor F) (NSt F) (NMsg F)) (T : Nat → Nat → Tensor F) :
    CProg.at (p.map whenCold) (fun u => (true, T u)) = p.at T := by
  simp only [CProg.at, List.map_map]
  rfl

/-- Where the setup is done there is nothing to do. -/
theorem warm_at {W : List Nat} {act : Nat → Bool} (p : CProg (Nat → Tensor F) (NSt F) (NMsg F)) {T : Nat → Nat → Tensor F}
    (hp : ∀ ph ∈ p.at T, IdlePh act ph) {k : Nat → Bool} (hk : ∀ u, k u = true → act u = false) (S : Nat → NSt F) :
    ProgOK W (CProg.at (p.map whenCold) fun u => (k u, T u)) S ∧ run (CProg.at (p.map whenCold) fun u => (k u, T u)) S = S := by
  induction p generalizing S with
  | nil => exact ⟨trivial, rfl⟩
  | cons ph p ih =>
    obtain ⟨h1, h2⟩ := ih (fun ph' h' => hp ph' (List.mem_cons_of_mem _ h')) S
    have e : (fun u => whenCold ph (k u, T u) u) = localPhase fun _ x => x := by
      funext u x
      show (if k u = true then ph (T u) u x else idlePhase) = idlePhase
      split
      · next h => exact hp _ List.mem_cons_self u (hk u h) x
      · rfl
    show (PhaseOK W (fun u => whenCold ph (k u, T u) u) S ∧ ProgOK W (CProg.at (p.map whenCold) fun u => (k u, T u))
      (sync (fun u => whenCold ph (k u, T u) u) S)) ∧
      run (CProg.at (p.map whenCold) fun u => (k u, T u)) (sync (fun u => whenCold ph (k u, T u) u) S) = S
    rw [e]
    exact ⟨⟨localPhase_ok fun _ x => x, h1⟩, h2⟩

theorem tidy_eq {q : Kept} {a b : NSt F} {k : Info} (h : Tidy q a b) : useKept q (keepOf q k a) b = a := by
  obtain ⟨h1, h2, h3, h4, h5, h6, h7⟩ := h
  have : (b.err || a.err) = a.err := by
    cases e : b.err with
    | false => rfl
    | true => rw [h5 e]; rfl
  cases a
  cases b
  cases q <;> simp_all [useKept, keepOf]

theorem idle_run {act : Nat → Bool} {p : Prog (NSt F) (NMsg F)} (hp : ∀ ph ∈ p, IdlePh act ph) {u : Nat} (hu : act u = false)
    (S : Nat → NSt F) : run p S u = S u := by
  induction p generalizing S with
  | nil => rfl
  | cons ph p ih =>
    show run p (sync ph S) u = S u
    rw [ih fun ph' h' => hp ph' (List.mem_cons_of_mem _ h')]
    unfold sync
    rw [hp ph List.mem_cons_self u hu]
    rfl

/-- A call, with or without setup. -/
theorem callMod_run {W : List Nat} (i j : Nat) {cm : CMod F} {m : Mod F} (C : Nat → LSt F)
    (hm : Resolves (fun u => (C u).θ i) cm m) (ht : ModTidy m) (hok : ProgOK W m.prog fun u => (C u).b.s)
    (hc : Decides (fun u => (C u).cache j) (memOf m fun u => (C u).b.s)) (hcold : ∀ u, (C u).cold = false) :
    ProgOK W (callMod i j cm) C ∧ ∀ u, run (callMod i j cm) C u = { C u with
      b := ⟨run m.prog (fun u => (C u).b.s) u, (C u).b.s :: (C u).b.tape, (C u).b.grads⟩
      cache := fun q => if q = j then memOf m (fun u => (C u).b.s) u else (C u).cache q } := by
  obtain ⟨S, hS⟩ : ∃ S, S = fun u => (C u).b.s := ⟨_, rfl⟩
  rw [← hS] at hok hc ⊢
  unfold Mod.prog at hok
  rw [progOK_append] at hok
  have hSu : ∀ u, (C u).b.s = S u := fun u => (congrFun hS u).symm
  have hout : ∀ u, m.act u = false → (C u).cache j = none := fun u hu => hc.1 u (if_neg (by rw [hu]; simp))
  -- after the check
  obtain ⟨C1, hC1⟩ : ∃ C1, C1 = sync (checkPhase j cm.key) C := ⟨_, rfl⟩
  have e1 : ∀ u, C1 u = { C u with b := ⟨S u, S u :: (C u).b.tape, (C u).b.grads⟩
                                   cold := decide (((C u).cache j).map Mem.key ≠ some (m.key (S u))) } := by
    intro u
    rw [hC1, ← hm.key, ← hSu]
    rfl
  have hcout : ∀ u, m.act u = false → (C1 u).cold = true := fun u hu => by rw [e1 u]; simp [hout u hu]
  have hS1 : (fun u => sLens.get (C1 u)) = S := by funext u; rw [e1 u]; rfl
  -- after the setup
  obtain ⟨s1, s2⟩ := ctx_run (W := W) (ctx := fun c : LSt F => (c.cold, c.θ i)) (L := sLens) (fun _ _ => rfl)
    (cm.setup.map whenCold) C1
  rw [hS1] at s1 s2
  obtain ⟨C2, hC2⟩ : ∃ C2, C2 = run ((cm.setup.map whenCold).map (ctxPhase (fun c : LSt F => (c.cold, c.θ i)) sLens)) C1 :=
    ⟨_, rfl⟩
  rw [← hC2] at s2
  have hθ1 : (fun u => ((C1 u).cold, (C1 u).θ i)) = fun u => ((C1 u).cold, (C u).θ i) := by
    funext u
    rw [show (C1 u).θ = (C u).θ by rw [e1 u]]
  rw [hθ1] at s1 s2
  -- workers that have done the setup
  have done : ∀ u, C2 u = { C1 u with b := ⟨run m.setup S u, S u :: (C u).b.tape, (C u).b.grads⟩ } → (C1 u).cold = true →
      sync (keepPhase j cm.key cm.act cm.part) C2 u = { C u with
        b := ⟨run m.setup S u, S u :: (C u).b.tape, (C u).b.grads⟩
        cache := fun q => if q = j then memOf m S u else (C u).cache q } := by
    intro u e2 hu
    show (if (C2 u).cold = true then _ else _) = _
    rw [e2, if_pos hu, e1 u, hm.key, hm.act, hm.part]
    have ek : m.key (run m.setup S u) = m.key (S u) := ht.key _ _ _ (run_tidy ht.setup S u)
    have ecache : (fun q => if q = j ∧ m.act u = true then some (keepOf (m.part u) (m.key (run m.setup S u)) (run m.setup S u))
        else (C u).cache q) = fun q => if q = j then memOf m S u else (C u).cache q := by
      funext q
      unfold memOf
      by_cases hq : q = j
      · subst hq
        cases ha : m.act u with
        | true => rw [if_pos ⟨rfl, rfl⟩, if_pos rfl, if_pos rfl, ek]
        | false => rw [if_neg (by simp), if_pos rfl, if_neg (by simp), hout u ha]
      · rw [if_neg (fun h => hq h.1), if_neg hq]
    dsimp only
    rw [ecache, hcold u]
  -- after keeping
  have key : ProgOK W ((cm.setup.map whenCold).map (ctxPhase (fun c : LSt F => (c.cold, c.θ i)) sLens)) C1 ∧
      ∀ u, sync (keepPhase j cm.key cm.act cm.part) C2 u = { C u with
        b := ⟨run m.setup S u, S u :: (C u).b.tape, (C u).b.grads⟩
        cache := fun q => if q = j then memOf m S u else (C u).cache q } := by
    rcases hc.2 with hk | hk
    · have hcu : ∀ u, (C1 u).cold = true := by
        intro u
        cases ha : m.act u with
        | false => exact hcout u ha
        | true =>
          rw [e1 u]
          exact decide_eq_true (hk u _ (if_pos ha))
      have ec : (fun u => ((C1 u).cold, (C u).θ i)) = fun u => (true, (C u).θ i) := by
        funext u
        rw [hcu u]
      rw [ec, cold_at, hm.setup] at s1 s2
      refine ⟨s1 hok.1, fun u => done u ?_ (hcu u)⟩
      rw [s2 u, e1 u]
      rfl
    · have hcu : ∀ u, (C1 u).cold = true → m.act u = false := by
        intro u hu
        by_contra ha
        rw [Bool.not_eq_false] at ha
        rw [e1 u] at hu
        refine of_decide_eq_true hu ?_
        have hku : (C u).cache j = memOf m S u := congrFun hk u
        rw [hku, memOf, if_pos ha]
        rfl
      obtain ⟨w1, w2⟩ := warm_at (W := W) (act := m.act) cm.setup (T := fun u => (C u).θ i) (by rw [hm.setup]; exact ht.idle)
        (k := fun u => (C1 u).cold) hcu S
      refine ⟨s1 w1, fun u => ?_⟩
      have e3 : C2 u = C1 u := by rw [s2 u, w2, e1 u]; rfl
      cases ha : m.act u with
      | false =>
        refine done u ?_ (hcout u ha)
        rw [e3, e1 u, idle_run ht.idle ha]
      | true =>
        have hcw : (C1 u).cold = false := Bool.eq_false_iff.2 fun h => by rw [hcu u h] at ha; cases ha
        have e4 : (C1 u).cache j = memOf m S u := by rw [e1 u]; exact congrFun hk u
        show (if (C2 u).cold = true then _ else _) = _
        rw [e3, if_neg (by simp [hcw]), e4, memOf, if_pos ha]
        have ec1 : (C1 u).cold = (C u).cold := hcw.trans (hcold u).symm
        have et := tidy_eq (k := m.key (S u)) (run_tidy ht.setup S u)
        have ecache : (fun q => if q = j then some (keepOf (m.part u) (m.key (S u)) (run m.setup S u)) else (C u).cache q) =
            (C u).cache := by
          funext q
          split
          · next e =>
            have hku : (C u).cache j = memOf m S u := congrFun hk u
            rw [e, hku, memOf, if_pos ha]
          · rfl
        rw [ecache]
        have efull : C1 u = { C u with b := ⟨S u, S u :: (C u).b.tape, (C u).b.grads⟩ } := by
          rw [e1 u] at ec1 ⊢
          dsimp only at ec1 ⊢
          rw [ec1]
        rw [efull, hm.part]
        dsimp only
        rw [et]
  obtain ⟨k1, k2⟩ := key
  obtain ⟨C3, hC3⟩ : ∃ C3, C3 = sync (keepPhase j cm.key cm.act cm.part) C2 := ⟨_, rfl⟩
  rw [← hC3] at k2
  obtain ⟨r1, r2⟩ := ctx_run (W := W) (ctx := fun c : LSt F => c.θ i) (L := sLens) (fun _ _ => rfl) cm.rest C3
  have hS3 : (fun u => sLens.get (C3 u)) = run m.setup S := by funext u; rw [k2 u]; rfl
  have hT3 : (fun u => (C3 u).θ i) = fun u => (C u).θ i := by funext u; rw [k2 u]
  rw [hS3, hT3, hm.rest] at r1 r2
  constructor
  · refine ⟨localPhase_ok _, ?_⟩
    rw [← hC1, progOK_append, ← hC2]
    refine ⟨k1, localPhase_ok _, ?_⟩
    rw [← hC3]
    exact r1 hok.2
  · intro u
    show run (_ ++ _ :: _) (sync (checkPhase j cm.key) C) u = _
    rw [← hC1, run_append, ← hC2]
    show run (cm.rest.map _) (sync (keepPhase j cm.key cm.act cm.part) C2) u = _
    rw [← hC3, r2 u, k2 u, hSu u]
    unfold Mod.prog
    rw [run_append]
    rfl

/-! ## All modules -/

/-- Calls of the modules `j`, `j + 1`, …; with the numbers of their layers. -/
def callProg (j : Nat) : List (Nat × CMod F) → Prog (LSt F) (NMsg F)
  | [] => []
  | (i, m) :: ms => callMod i j m ++ callProg (j + 1) ms

/-- What the modules keep. -/
def memsOf : List (Mod F) → (Nat → NSt F) → List (Nat → Option Mem)
  | [], _ => []
  | m :: ms, S => memOf m S :: memsOf ms (run m.prog S)

theorem length_memsOf (ms : List (Mod F)) (S : Nat → NSt F) : (memsOf ms S).length = ms.length := by
  induction ms generalizing S with
  | nil => rfl
  | cons m ms ih => simp [memsOf, ih]

/-- Forward passes in which the workers decide alike about the setup of every module. -/
theorem callProg_run {W : List Nat} {T : Nat → Nat → Nat → Tensor F} {cms : List (Nat × CMod F)} {ms : List (Mod F)}
    (hm : List.Forall₂ (fun c m => Resolves (fun u => T u c.1) c.2 m) cms ms) (ht : ∀ m ∈ ms, ModTidy m) :
    ∀ (j : Nat) (C : Nat → LSt F), (∀ u, (C u).θ = T u) → ProgOK W (ms.map Mod.prog).flatten (fun u => (C u).b.s) →
    (∀ k mem, (memsOf ms fun u => (C u).b.s)[k]? = some mem → Decides (fun u => (C u).cache (j + k)) mem) →
    (∀ u, (C u).cold = false) →
    ProgOK W (callProg j cms) C ∧ ∀ u, ∃ cache, run (callProg j cms) C u = { C u with
        b := ⟨run (ms.map Mod.prog).flatten (fun u => (C u).b.s) u,
          snaps (ms.map Mod.prog) (fun u => (C u).b.s) u ++ (C u).b.tape, (C u).b.grads⟩
        cache := cache } ∧
      (∀ q < j, cache q = (C u).cache q) ∧
      ∀ k, cache (j + k) = (((memsOf ms fun u => (C u).b.s)[k]?).getD fun u => (C u).cache (j + k)) u := by
  induction hm with
  | nil => exact fun j C _ _ _ _ => ⟨trivial, fun u => ⟨(C u).cache, rfl, fun _ _ => rfl, fun k => rfl⟩⟩
  | @cons c m cms ms h1 _ ih =>
    intro j C hT hok hc hcold
    obtain ⟨i, cm⟩ := c
    rw [List.map_cons, List.flatten_cons, progOK_append] at hok
    obtain ⟨a1, a2⟩ := callMod_run (W := W) i j C (cm := cm) (m := m) (by simpa only [hT] using h1)
      (ht m List.mem_cons_self) hok.1 (hc 0 _ rfl) hcold
    obtain ⟨D, hD⟩ : ∃ D, D = run (callMod i j cm) C := ⟨_, rfl⟩
    rw [← hD] at a2
    have eS : (fun u => (D u).b.s) = run m.prog fun u => (C u).b.s := by funext u; rw [a2 u]
    obtain ⟨b1, b2⟩ := ih (fun m hm => ht m (List.mem_cons_of_mem _ hm)) (j + 1) D (fun u => by rw [a2 u]; exact hT u)
      (by rw [eS]; exact hok.2) (by
        rw [eS]
        intro k mem hk
        have e : (fun u => (D u).cache (j + 1 + k)) = fun u => (C u).cache (j + (k + 1)) := by
          funext u
          rw [a2 u]
          show (if j + 1 + k = j then _ else _) = _
          rw [if_neg (by omega), show j + 1 + k = j + (k + 1) by omega]
        rw [e]
        exact hc (k + 1) mem hk) fun u => by rw [a2 u]; exact hcold u
    constructor
    · show ProgOK W (callMod i j cm ++ callProg (j + 1) cms) C
      rw [progOK_append, ← hD]
      exact ⟨a1, b1⟩
    · intro u
      obtain ⟨cache, r1, r2, r3⟩ := b2 u
      refine ⟨cache, ?_, fun q hq => ?_, fun k => ?_⟩
      · show run (callMod i j cm ++ callProg (j + 1) cms) C u = _
        rw [run_append, ← hD, r1, eS, a2 u, List.map_cons, List.flatten_cons, run_append, snaps, List.append_assoc]
        rfl
      · rw [r2 q (by omega), a2 u]
        exact if_neg (by omega)
      · cases k with
        | zero =>
          rw [r2 (j + 0) (by omega), a2 u]
          exact if_pos rfl
        | succ k =>
          rw [show j + (k + 1) = j + 1 + k by omega, r3 k, eS]
          show _ = (((memsOf ms (run m.prog fun u => (C u).b.s))[k]?).getD _) u
          have e : (fun u => (D u).cache (j + 1 + k)) = fun u => (C u).cache (j + 1 + k) := by
            funext u
            rw [a2 u]
            exact if_neg (by omega)
          rw [e]

/-- What the modules keep does not depend on entries. -/
theorem mems_like {ms ms' : List (Mod F)} (h : List.Forall₂ ModLike ms ms') : ∀ {S S' : Nat → NSt F},
    (∀ w, (S w).bare = (S' w).bare) → memsOf ms S = memsOf ms' S' := by
  induction h with
  | nil => exact fun _ => rfl
  | @cons m m' ms ms' h1 _ ih =>
    intro S S' hS
    have e : memOf m S = memOf m' S' := by
      funext w
      obtain ⟨-, -, e1, e2, e3, -⟩ := bare_eq.1 (run_like h1.setup hS w)
      simp only [memOf, keepOf, h1.key _ _ (hS w), h1.act, h1.part, e1, e2, e3]
    have := ih (run_like (h1.setup.append h1.rest) hS)
    simp only [memsOf]
    rw [e]
    exact congrArg _ this

end Verif.Net
