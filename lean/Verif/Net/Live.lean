import Verif.Net.Train
import Verif.Net.Stuck

/-!
# Networks in training: which tensors require gradients

Autograd calls the adjoint of an operation on a worker only if one of the operation's inputs on this worker requires
gradients, whatever the other workers do: `torch.autograd.Function.apply` records nothing otherwise, and detaches the
output, so that the `requires_grad` of the forward passes (`functional/broadcast.py:126`, `functional/sum_reduce.py:128-136`,
`functional/repartition.py:206-211`) is without effect.  Parameters require gradients; the input of a network usually does
not.  Here a worker has a flag that says whether the tensor passed from layer to layer requires gradients on it, and
skips the adjoints accordingly.
-/

namespace Verif.Net

variable {F β : Type}

/-! ## Skipping adjoints -/

section
variable {σ τ μ C : Type}

/-- Nothing to do. -/
def idlePhase : Phase τ μ := ⟨[], id, none⟩

/-- Only the workers with flag `b` perform the program. -/
def CProg.gate (b : Nat → Bool) (p : CProg C τ μ) : CProg C τ μ := p.map fun ph T w x => if b w then ph T w x else idlePhase

/-- Nobody performs the program. -/
def CProg.skip (p : CProg C τ μ) : CProg C τ μ := p.map fun _ _ _ _ => idlePhase

end

section
variable [Field F]

/-- The adjoint of broadcast, local operator and sum-reduction, cut: the flag says whether a piece is there only for the
gradient of the input of the layer (the adjoint of the broadcast). -/
def stackSegs (c cy : Nat) (Lx Ly : PairLayer) (opG : Nat → NSt F → NSt F → NSt F) :
    List (Bool × CProg (List (NSt F)) (NSt F) (NMsg F)) :=
  [(false, reduceBack cy Ly tenLens (ownAt 0) ++ [opBackPhase Lx.Py.members 1 opG]),
    (true, bcastBack c Lx tenLens (strAt 1) (ownAt 2))]

/-- The adjoint of a layer, cut; the flag `true`: the piece belongs to operations whose only input is made from the input
of the layer (`conv_feature.py:380-391`, `pooling.py:289-302`, `conv_channel.py:341`, `conv_general.py:556-581`,
`linear.py:99`, `repartition.py:329-357`); `false`: to operations on the parameters, or on something made with them. -/
def TLayer.segs (P : Cart) : TLayer F β → List (Bool × CProg (List (NSt F)) (NSt F) (NMsg F))
  | .map _ df => [(true, mapBack df)]
  | .conv c cw cb C _ B =>
    if P.members.length = 1 then [(false, [convBackOne P C])]
    else
      [(false, [winBackStart P C.W 0 B
        (fun A I y => torchConvGradX C.W.noPad C.groups C.Ci C.Co (A.par 0).1.val I.1 y.val)
        fun A => convParGrad C C.W.noPad A.par]),
      (true, (List.range (haloPhases P)).map (haloBackPhase c P C.W 0 B) ++ [winBackEnd P C.W 0 B]),
      (false, match C.bias with
        | some _ => bcastBack cb (paramBcast P) (parLens 1) (strAt 1) (parAt 1 2) ++
            bcastBack cw (paramBcast P) (parLens 0) (strAt 3) (parAt 0 4)
        | none => bcastBack cw (paramBcast P) (parLens 0) (strAt 1) (parAt 0 2))]
  | .avg c Q B => [(true, avgBack c P Q B)]
  | .flat => [(true, flatBack P)]
  | .rep c Py pb B => [(true, repBack c P Py pb B)]
  | .lin c cy A _ _ _ => stackSegs c cy A.xBroadcast A.ySumReduce (linGrad A)
  | .chan c cy C weight bias _ _ _ =>
    match castPartitions true C.Px C.Py C.Pw with
    | none => [(false, (failProg C.union).map fun ph _ => ph)]
    | some (x, y) =>
      if C.Pw.members.length = 1 then [(false, serialConvBack C weight bias)]
      else stackSegs c cy (chanBroadcast x C.Pw) (chanReduce C.Pw y) (chanOpGrad C weight bias)
  | .gen c cw cb cx cy C weight bias _ B _ _ =>
    match castPartitions false C.Px C.Py C.Pw with
    | none => [(false, (failProg C.union).map fun ph _ => ph)]
    | some (x, y) =>
      if C.Pw.members.length = 1 then [(false, serialConvBack C weight bias)]
      else
        match weightRoot C.Pw, biasPart C.Pw, biasRoot C.Pw with
        | some Pwr, some Pb, some Pbr =>
          stackSegs cx cy (chanBroadcast x C.Pw) (chanReduce C.Pw y) (genOpGrad C Pb) ++
          [(false, if C.useBias then bcastBack cb (paramLayer Pbr Pb) (parLens 1) (strAt 2) (parAt 1 3) ++
              bcastBack cw (paramLayer Pwr C.Pw) (parLens 0) (strAt 4) (parAt 0 5)
            else bcastBack cw (paramLayer Pwr C.Pw) (parLens 0) (strAt 2) (parAt 0 3)),
          (true, (winBack c x C.W 0 B (fun _ _ y => y.val) (fun _ _ _ p => p)).from (if C.useBias then 7 else 5))]
        | _, _, _ => [(false, (failProg C.union).map fun ph _ => ph)]

/-- Together the pieces are the adjoint. -/
theorem TLayer.segs_flatten (P : Cart) (l : TLayer F β) : ((l.segs P).map Prod.snd).flatten = l.adjProg P := by
  cases l with
  | map f df => simp [segs, adjProg]
  | conv c cw cb C rgw B =>
    simp only [segs, adjProg, convBack]
    split
    · simp
    · cases C.bias <;> simp [winBack]
  | avg c Q B => simp [segs, adjProg]
  | flat => simp [segs, adjProg]
  | rep c Py pb B => simp [segs, adjProg]
  | lin c cy A rgp weight bias => simp [segs, adjProg, stackSegs, linBack, stackBackProg]
  | chan c cy C weight bias rgp Wt bi =>
    simp only [segs, adjProg, chanBack]
    rcases castPartitions true C.Px C.Py C.Pw with _ | ⟨x, y⟩
    · simp
    · simp only
      split
      · simp
      · simp [stackSegs, stackBackProg]
  | gen c cw cb cx cy C weight bias rgp B Wt bi =>
    simp only [segs, adjProg, genBack]
    rcases castPartitions false C.Px C.Py C.Pw with _ | ⟨x, y⟩
    · simp
    · simp only
      split
      · simp
      · rcases weightRoot C.Pw with _ | Pwr
        · simp
        · rcases biasPart C.Pw with _ | Pb
          · simp
          · rcases biasRoot C.Pw with _ | Pbr
            · simp
            · simp [stackSegs, stackBackProg]

/-- Has the layer parameters on worker `w`?  All the workers of the partition that holds them have a tensor that requires
gradients, be it the parameter itself or one without entries in its place: `conv_feature.py:171-201`,
`conv_channel.py:206-224`, `conv_general.py:303-345`, `linear.py:70-80`. -/
def TLayer.owns (P : Cart) : TLayer F β → Nat → Bool
  | .conv _ _ _ _ _ _ => fun w => P.members.contains w
  | .lin _ _ A _ _ _ => fun w => A.Pw.members.contains w
  | .chan _ _ C _ _ _ _ _ => fun w => C.Pw.members.contains w
  | .gen _ _ _ _ _ C _ _ _ _ _ _ => fun w => C.Pw.members.contains w
  | _ => fun _ => false

/-- Layers without parameters. -/
def TLayer.plain : TLayer F β → Bool
  | .map _ _ | .avg _ _ _ | .flat | .rep _ _ _ _ => true
  | _ => false

/-- Does the output of the layer require gradients on worker `w`?  If its input does (workers that take no part pass a
copy on: `linear.py:95-96`, `conv_feature.py:367-368`, `pooling.py:286-287`), or if it is made with parameters. -/
def TLayer.liveOut (P : Cart) (l : TLayer F β) (live : Nat → Bool) (w : Nat) : Bool := live w || l.owns P w

/-- The backward pass of a layer whose input requires gradients on the workers `live`. -/
def TLayer.backL (P : Cart) (live : Nat → Bool) (l : TLayer F β) : Prog (BSt F) (NMsg F) :=
  backProg ((l.segs P).flatMap fun s => CProg.gate (if s.1 then live else l.liveOut P live) s.2) ++
    [dropPhase (l.cuts P).length (l.has P)]

/-- The backward pass of a network whose input requires gradients on the workers `live`. -/
def netBackL (P : Cart) (live : Nat → Bool) : List (TLayer F β) → Prog (BSt F) (NMsg F)
  | [] => []
  | l :: ls => netBackL (l.out P) (l.liveOut P live) ls ++ l.backL P live

/-- Forward and backward pass of a network whose input requires gradients on the workers `live`. -/
def trainProgL (P : Cart) (ls : List (TLayer F β)) (live : Nat → Bool) (seed : Nat → Tensor F → Tensor F) :
    Prog (BSt F) (NMsg F) :=
  tapeProg (netCuts P ls) ++ seedPhase seed :: netBackL P live ls

end

/-! ## Programs that are the same for the workers at hand -/

section
variable {σ μ : Type} {W : List Nat}

/-- The workers `W` do the same in both programs. -/
def Agree (W : List Nat) : Prog σ μ → Prog σ μ → Prop := List.Forall₂ fun ph ph' => ∀ w ∈ W, ph w = ph' w

theorem Agree.refl (p : Prog σ μ) : Agree W p p := by
  induction p with
  | nil => exact .nil
  | cons ph p ih => exact .cons (fun _ _ => rfl) ih

theorem Agree.symm {p p' : Prog σ μ} (h : Agree W p p') : Agree W p' p := by
  induction h with
  | nil => exact .nil
  | cons h _ ih => exact .cons (fun w hw => (h w hw).symm) ih

theorem Agree.append {p p' q q' : Prog σ μ} (h : Agree W p p') (h' : Agree W q q') : Agree W (p ++ q) (p' ++ q') :=
  List.rel_append h h'

theorem Agree.get {p p' : Prog σ μ} (h : Agree W p p') {k : Nat} {ph : Nat → σ → Phase σ μ} (hp : p[k]? = some ph) :
    ∃ ph', p'[k]? = some ph' ∧ ∀ w ∈ W, ph w = ph' w := by
  induction h generalizing k with
  | nil => simp at hp
  | @cons a b p p' h hs ih =>
    cases k with
    | zero =>
      obtain rfl : a = ph := by simpa using hp
      exact ⟨b, rfl, h⟩
    | succ k => exact ih (by simpa using hp)

theorem Agree.step {p p' : Prog σ μ} (h : Agree W p p') {early : GState σ μ → Nat → Nat → Prop} {g g' : GState σ μ}
    (hs : Step W p early g g') : Step W p' early g g' := by
  cases hs with
  | post w ph r hw hp hl hr =>
    obtain ⟨ph', hp', e⟩ := h.get hp
    exact .post g w ph' r hw hp' hl (e w hw ▸ hr)
  | enter w ph hw hp hl hn =>
    obtain ⟨ph', hp', e⟩ := h.get hp
    rw [e w hw] at hn ⊢
    exact .enter g w ph' hw hp' hl hn
  | complete w i ph r hw hp hl hr hi ho hd hm =>
    obtain ⟨ph', hp', e⟩ := h.get hp
    rw [e w hw] at hr ho
    exact .complete g w i ph' r hw hp' hl hr hi ho hd hm
  | next w ph hw hp hl hn =>
    obtain ⟨ph', hp', e⟩ := h.get hp
    rw [e w hw] at hn
    exact .next g w ph' hw hp' hl hn

/-- They have the same executions. -/
theorem Agree.exec {p p' : Prog σ μ} (h : Agree W p p') {early : GState σ μ → Nat → Nat → Prop} {n : Nat}
    {g g' : GState σ μ} (he : Exec W p early n g g') : Exec W p' early n g g' := by
  induction he with
  | refl => exact .refl _
  | tail _ hs ih => exact .tail ih (h.step hs)

end

theorem agree_backProg {W : List Nat} {p p' : CProg (List (NSt F)) (NSt F) (NMsg F)}
    (h : List.Forall₂ (fun ph ph' => ∀ T, ∀ w ∈ W, ph T w = ph' T w) p p') : Agree W (backProg p) (backProg p') := by
  induction h with
  | nil => exact .nil
  | cons h _ ih =>
    refine .cons (fun w hw => ?_) ih
    funext x
    simp only [ctxPhase, h _ w hw]

/-! ## What does not matter for the gradients of the parameters -/

/-- The same parameters, and the first worker has seen an exception at most if the second has. -/
def SamePar (x y : NSt F) : Prop := x.par = y.par ∧ (x.err = true → y.err = true)

theorem SamePar.refl (x : NSt F) : SamePar x x := ⟨rfl, id⟩

theorem SamePar.trans {x y z : NSt F} (h : SamePar x y) (h' : SamePar y z) : SamePar x z :=
  ⟨h.1.trans h'.1, fun e => h'.2 (h.2 e)⟩

/-- The program does not touch the parameters. -/
def Keeps {C : Type} (p : CProg C (NSt F) (NMsg F)) : Prop :=
  ∀ ph ∈ p, ∀ T w x, SamePar x ((ph T w x).work x) ∧ ∀ r ∈ (ph T w x).reqs, ∀ m y, SamePar y (r.get m y)

/-- The program does not look at anything but the parameters. -/
def Blind {C : Type} (p : CProg C (NSt F) (NMsg F)) : Prop :=
  ∀ ph ∈ p, ∀ T w x y, SamePar x y → (ph T w x).reqs = (ph T w y).reqs ∧ (ph T w x).order = (ph T w y).order ∧
    SamePar ((ph T w x).work x) ((ph T w y).work y) ∧
    ∀ r ∈ (ph T w x).reqs, ∀ m a b, SamePar a b → SamePar (r.get m a) (r.get m b)

section
variable {C : Type} {p q : CProg C (NSt F) (NMsg F)}

theorem Keeps.append (hp : Keeps p) (hq : Keeps q) : Keeps (p ++ q) := fun ph h =>
  (List.mem_append.1 h).elim (hp ph) (hq ph)

theorem Blind.append (hp : Blind p) (hq : Blind q) : Blind (p ++ q) := fun ph h =>
  (List.mem_append.1 h).elim (hp ph) (hq ph)

theorem Keeps.from {p : CProg (List (NSt F)) (NSt F) (NMsg F)} (hp : Keeps p) (k : Nat) : Keeps (p.from k) := by
  intro ph h T w x
  obtain ⟨ph, h', rfl⟩ := List.mem_map.1 h
  exact hp ph h' _ w x

theorem Keeps.run (hp : Keeps p) (T : Nat → C) (G : Nat → NSt F) (w : Nat) : SamePar (G w) (run (p.at T) G w) := by
  induction p generalizing G with
  | nil => exact .refl _
  | cons ph p ih =>
    refine SamePar.trans ?_ (ih (fun ph' h => hp ph' (List.mem_cons_of_mem _ h)) _)
    obtain ⟨h1, h2⟩ := hp ph (List.mem_cons_self ..) (T w) w (G w)
    have key : ∀ (l : List (Req (NSt F) (NMsg F))) (f : Req (NSt F) (NMsg F) → List (NMsg F)) (y : NSt F), SamePar (G w) y →
        (∀ r ∈ l, ∀ m y, SamePar y (r.get m y)) → SamePar (G w) (l.foldl (fun x r => r.get (f r) x) y) := by
      intro l f
      induction l with
      | nil => exact fun y h _ => h
      | cons r l ih =>
        intro y h hl
        exact ih _ (h.trans (hl r (List.mem_cons_self ..) _ _)) fun r' h' => hl r' (List.mem_cons_of_mem _ h')
    exact key _ _ _ h1 h2

theorem skip_run (p : CProg C (NSt F) (NMsg F)) {W : List Nat} (T : Nat → C) (G : Nat → NSt F) :
    ProgOK W (p.skip.at T) G ∧ run (p.skip.at T) G = G := by
  induction p generalizing G with
  | nil => exact ⟨trivial, rfl⟩
  | cons ph p ih =>
    obtain ⟨h1, h2⟩ := ih G
    refine ⟨⟨?_, h1⟩, h2⟩
    exact localPhase_ok fun _ x => x

theorem Blind.run (hp : Blind p) {W : List Nat} {T : Nat → C} {G G' : Nat → NSt F} (h : ∀ w, SamePar (G w) (G' w))
    (ok : ProgOK W (p.at T) G') :
    ProgOK W (p.at T) G ∧ ∀ w, SamePar (run (p.at T) G w) (run (p.at T) G' w) := by
  induction p generalizing G G' with
  | nil => exact ⟨trivial, h⟩
  | cons ph p ih =>
    obtain ⟨ok1, ok2⟩ := ok
    have hb := fun w => hp ph (List.mem_cons_self ..) (T w) w _ _ (h w)
    have hc : contribution (fun u => ph (T u) u) G = contribution (fun u => ph (T u) u) G' := by
      funext k u
      unfold contribution
      rw [(hb u).1]
    have key : ∀ (l : List (Req (NSt F) (NMsg F))) (f : Req (NSt F) (NMsg F) → List (NMsg F)) (x y : NSt F), SamePar x y →
        (∀ r ∈ l, ∀ m a b, SamePar a b → SamePar (r.get m a) (r.get m b)) →
        SamePar (l.foldl (fun x r => r.get (f r) x) x) (l.foldl (fun x r => r.get (f r) x) y) := by
      intro l f
      induction l with
      | nil => exact fun x y h _ => h
      | cons r l ih =>
        intro x y h hl
        exact ih _ _ (hl r (List.mem_cons_self ..) _ _ _ h) fun r' h' => hl r' (List.mem_cons_of_mem _ h')
    have hs : ∀ w, SamePar (sync (fun u => ph (T u) u) G w) (sync (fun u => ph (T u) u) G' w) := by
      intro w
      unfold sync
      rw [hc, ← (hb w).1]
      exact key _ _ _ _ (hb w).2.2.1 (hb w).2.2.2
    obtain ⟨i1, i2⟩ := ih (fun ph' h' => hp ph' (List.mem_cons_of_mem _ h')) hs ok2
    refine ⟨⟨?_, i1⟩, i2⟩
    constructor
    · intro w hw
      rw [(hb w).1]
      exact ok1.nodup w hw
    · intro w hw
      rw [(hb w).1]
      exact ok1.own w hw
    · intro w hw r hr u hu
      rw [(hb w).1] at hr
      rw [(hb u).1]
      exact ok1.all w hw r hr u hu
    · intro w hw
      rw [(hb w).1]
      exact ok1.deps w hw
    · intro w hw
      rw [(hb w).1]
      exact ok1.comm w hw
    · intro w hw
      rw [(hb w).1, (hb w).2.1]
      exact ok1.order w hw

/-- The pieces for the gradient of the input are skipped, the others performed. -/
def closeSegs (l : List (Bool × CProg C (NSt F) (NMsg F))) : CProg C (NSt F) (NMsg F) :=
  l.flatMap fun s => if s.1 then s.2.skip else s.2

/-- What is skipped touches no parameters, what is performed looks only at parameters. -/
def Separate (l : List (Bool × CProg C (NSt F) (NMsg F))) : Prop := ∀ s ∈ l, if s.1 then Keeps s.2 else Blind s.2

theorem close_run {l : List (Bool × CProg C (NSt F) (NMsg F))} (hl : Separate l) {W : List Nat} {T : Nat → C}
    {G G' : Nat → NSt F} (h : ∀ w, SamePar (G w) (G' w)) (ok : ProgOK W (CProg.at (l.map Prod.snd).flatten T) G') :
    ProgOK W ((closeSegs l).at T) G ∧
    ∀ w, SamePar (run ((closeSegs l).at T) G w) (run (CProg.at (l.map Prod.snd).flatten T) G' w) := by
  induction l generalizing G G' with
  | nil => exact ⟨trivial, h⟩
  | cons s l ih =>
    rw [List.map_cons, List.flatten_cons, CProg.at_append, progOK_append] at ok
    rw [closeSegs, List.flatMap_cons, List.map_cons, List.flatten_cons, CProg.at_append, CProg.at_append]
    simp only [progOK_append, run_append]
    have hs := hl s (List.mem_cons_self ..)
    have hl' : Separate l := fun s' h' => hl s' (List.mem_cons_of_mem _ h')
    obtain ⟨b, p⟩ := s
    cases b with
    | true =>
      obtain ⟨k1, k2⟩ := skip_run p (W := W) T G
      simp only [if_true]
      rw [k2]
      obtain ⟨i1, i2⟩ := ih hl' (fun w => (h w).trans (Keeps.run hs T G' w)) ok.2
      exact ⟨⟨k1, i1⟩, i2⟩
    | false =>
      obtain ⟨k1, k2⟩ := Blind.run hs h ok.1
      obtain ⟨i1, i2⟩ := ih hl' k2 ok.2
      exact ⟨⟨k1, i1⟩, i2⟩

/-- A first piece that is performed may look at everything. -/
theorem close_run_cons {p : CProg C (NSt F) (NMsg F)} {l : List (Bool × CProg C (NSt F) (NMsg F))} (hl : Separate l)
    {W : List Nat} {T : Nat → C} {G : Nat → NSt F}
    (ok : ProgOK W (CProg.at (((false, p) :: l).map Prod.snd).flatten T) G) :
    ProgOK W ((closeSegs ((false, p) :: l)).at T) G ∧
    ∀ w, SamePar (run ((closeSegs ((false, p) :: l)).at T) G w)
      (run (CProg.at (((false, p) :: l).map Prod.snd).flatten T) G w) := by
  rw [List.map_cons, List.flatten_cons, CProg.at_append, progOK_append] at ok
  obtain ⟨i1, i2⟩ := close_run hl (fun w => SamePar.refl (Net.run (p.at T) G w)) ok.2
  rw [closeSegs, List.flatMap_cons, List.map_cons, List.flatten_cons, CProg.at_append, CProg.at_append]
  simp only [progOK_append, run_append]
  exact ⟨⟨ok.1, i1⟩, i2⟩

end

/-! ## The adjoints -/

section
variable [Field F] {C : Type}

omit [Field F] in
theorem keeps_local {f : C → Nat → NSt F → NSt F} (h : ∀ T w x, SamePar x (f T w x)) :
    Keeps ([fun T => localPhase (f T)] : CProg C (NSt F) (NMsg F)) := by
  intro ph hp T w x
  obtain rfl := List.mem_singleton.1 hp
  exact ⟨h T w x, fun r hr => by cases hr⟩

omit [Field F] in
theorem samePar_t (x : NSt F) (t : Tensor F) (rg : Bool) : SamePar x { x with t := t, rg := rg } := ⟨rfl, id⟩

omit [Field F] in
theorem samePar_err (x : NSt F) : SamePar x { x with err := true } := ⟨rfl, fun _ => rfl⟩

theorem keeps_bcastBack (c : Nat) (L : PairLayer) (lf rt : C → Info) : Keeps (bcastBack c L (tenLens (F := F)) lf rt) := by
  unfold bcastBack
  split
  · intro ph h
    cases h
  · intro ph h T w x
    obtain rfl := List.mem_singleton.1 h
    constructor
    · show SamePar x (if _ then x else blank _ _ x)
      split
      · exact .refl x
      · unfold blank
        split
        · exact samePar_t ..
        · exact samePar_err x
    · intro r hr m y
      have : ∀ g, SamePar y (if g = some w then match reduceResult (callsOf m) with
          | some z => (tenLens (F := F)).set (z, (rt T).2.2) y
          | none => { y with err := true } else y) := by
        intro g
        split
        · split
          · exact samePar_t ..
          · exact samePar_err y
        · exact .refl y
      rcases mem_pairPhase.1 hr with ⟨g, -, rfl⟩ | ⟨g, -, -, rfl⟩ <;> exact this _

theorem blind_bcastBack (c i : Nat) (L : PairLayer) (lf rt : C → Info) : Blind (bcastBack c L (parLens (F := F) i) lf rt) := by
  unfold bcastBack
  split
  · intro ph h
    cases h
  · intro ph h T w x y hxy
    obtain rfl := List.mem_singleton.1 h
    have hset : ∀ (z : Tensor F × Bool) {a b : NSt F}, SamePar a b → SamePar ((parLens i).set z a) ((parLens i).set z b) := by
      intro z a b hab
      refine ⟨?_, hab.2⟩
      show (fun j => if j = i then z else a.par j) = fun j => if j = i then z else b.par j
      rw [hab.1]
    have hget : (parLens i).get x = (parLens i).get y := congrFun hxy.1 i
    have herr : ∀ {a b : NSt F}, SamePar a b → SamePar { a with err := true } { b with err := true } := fun hab =>
      ⟨hab.1, fun _ => rfl⟩
    refine ⟨?_, ?_, ?_, fun r hr m a b hab => ?_⟩
    · simp only [sumPhase, pairPhase, hget]
    · simp only [sumPhase, pairPhase, hget]
    · show SamePar (if _ then x else blank _ _ x) (if _ then y else blank _ _ y)
      split
      · exact hxy
      · unfold blank
        rw [hget]
        split
        · exact hset _ hxy
        · exact herr hxy
    · have : ∀ g, SamePar (if g = some w then match reduceResult (callsOf m) with
          | some z => (parLens (F := F) i).set (z, (rt T).2.2) a
          | none => { a with err := true } else a)
          (if g = some w then match reduceResult (callsOf m) with
          | some z => (parLens (F := F) i).set (z, (rt T).2.2) b
          | none => { b with err := true } else b) := by
        intro g
        split
        · split
          · exact hset _ hab
          · exact herr hab
        · exact hab
      rcases mem_pairPhase.1 hr with ⟨g, -, rfl⟩ | ⟨g, -, -, rfl⟩ <;> exact this _

theorem keeps_halo (c : Nat) (P : Cart) (Q : WinParams) (v : F) (B : Bufs β) :
    Keeps ((List.range (haloPhases P)).map (haloBackPhase c P Q v B) ++ [winBackEnd P Q v B]) := by
  refine Keeps.append (fun ph h T w x => ?_) (keeps_local fun T w x => ?_)
  · obtain ⟨k, -, rfl⟩ := List.mem_map.1 h
    unfold haloBackPhase liftPhase
    split
    · refine ⟨⟨rfl, id⟩, fun r hr m y => ?_⟩
      rcases List.mem_append.1 hr with hr | hr
      · obtain ⟨j, -, e⟩ := List.mem_filterMap.1 hr
        unfold recvReq at e
        split at e
        · cases e
          show SamePar y (unpackAt inpLens arrInj _ m y)
          unfold unpackAt
          split
          · exact ⟨rfl, id⟩
          · exact .refl y
        · cases e
      · obtain ⟨j, -, e⟩ := List.mem_filterMap.1 hr
        unfold sendReq at e
        split at e
        · cases e
          exact .refl y
        · cases e
    · exact ⟨.refl x, fun r hr => by cases hr⟩
  · split
    · split
      · exact ⟨rfl, id⟩
      · exact samePar_err x
    · exact .refl x

theorem keeps_winBack (c : Nat) (P : Cart) (Q : WinParams) (v : F) (B : Bufs β)
    (gl : NSt F → List Nat × (List Nat → F) → Tensor F → List Nat → F) :
    Keeps (winBack c P Q v B gl fun _ _ _ p => p) := by
  refine Keeps.append (p := [_]) (keeps_local fun T w x => ?_) (keeps_halo c P Q v B)
  split
  · split
    · exact ⟨rfl, id⟩
    · exact samePar_err x
  · exact .refl x

/-- A parametric layer: the first piece of the adjoint is performed; after it what is skipped does not touch the
gradients of the parameters, and what is performed looks only at these. -/
theorem TLayer.segs_separate (P : Cart) (l : TLayer F β) (ho : l.plain = false) :
    ∃ p rest, l.segs P = (false, p) :: rest ∧ Separate rest := by
  have stack : ∀ (c cy : Nat) (Lx Ly : PairLayer) (opG : Nat → NSt F → NSt F → NSt F), ∃ p rest,
      stackSegs c cy Lx Ly opG = (false, p) :: rest ∧ Separate rest := by
    intro c cy Lx Ly opG
    refine ⟨_, _, rfl, fun s hs => ?_⟩
    obtain rfl := List.mem_singleton.1 hs
    exact keeps_bcastBack _ _ _ _
  have one : ∀ (p : CProg (List (NSt F)) (NSt F) (NMsg F)), ∃ p' rest,
      [(false, p)] = (false, p') :: rest ∧ Separate rest := fun p => ⟨p, [], rfl, fun s hs => by cases hs⟩
  cases l with
  | map | avg | flat | rep => cases ho
  | conv c cw cb C rgw B =>
    simp only [segs]
    split
    · exact one _
    · refine ⟨_, _, rfl, fun s hs => ?_⟩
      rcases List.mem_cons.1 hs with rfl | hs
      · exact keeps_halo _ _ _ _ _
      · obtain rfl := List.mem_singleton.1 hs
        show Blind (match C.bias with | some _ => _ | none => _)
        cases C.bias with
        | some b => exact (blind_bcastBack cb 1 _ _ _).append (blind_bcastBack cw 0 _ _ _)
        | none => exact blind_bcastBack cw 0 _ _ _
  | lin c cy A rgp weight bias => exact stack ..
  | chan c cy C weight bias rgp Wt bi =>
    simp only [segs]
    rcases castPartitions true C.Px C.Py C.Pw with _ | ⟨x, y⟩
    · exact one _
    · simp only
      split
      · exact one _
      · exact stack ..
  | gen c cw cb cx cy C weight bias rgp B Wt bi =>
    simp only [segs]
    rcases castPartitions false C.Px C.Py C.Pw with _ | ⟨x, y⟩
    · exact one _
    · simp only
      split
      · exact one _
      · rcases weightRoot C.Pw with _ | Pwr
        · exact one _
        · rcases biasPart C.Pw with _ | Pb
          · exact one _
          · rcases biasRoot C.Pw with _ | Pbr
            · exact one _
            · refine ⟨_, _, rfl, fun s hs => ?_⟩
              have hs : s ∈ [_, _, _] := hs
              simp only [List.mem_cons, List.not_mem_nil, or_false] at hs
              rcases hs with rfl | rfl | rfl
              · exact keeps_bcastBack (F := F) cx (chanBroadcast x C.Pw) _ _
              · show Blind (if _ then _ else _)
                split
                · exact (blind_bcastBack cb 1 _ _ _).append (blind_bcastBack cw 0 _ _ _)
                · exact blind_bcastBack cw 0 _ _ _
              · exact (keeps_winBack _ _ _ _ _ _).from _

/-- The other layers have nothing but their input. -/
theorem TLayer.segs_plain (P : Cart) {l : TLayer F β} (h : l.plain = true) :
    l.segs P = [(true, l.adjProg P)] ∧ (∀ w i, l.has P w i = false) ∧ ∀ w, l.owns P w = false := by
  cases l with
  | map | avg | flat | rep => exact ⟨rfl, fun _ _ => rfl, fun _ => rfl⟩
  | conv | lin | chan | gen => cases h

/-! ## All or no workers -/

/-- The first layer with parameters has some on every worker. -/
def Covers (W : List Nat) : Cart → List (TLayer F β) → Prop
  | _, [] => True
  | P, l :: ls => if l.plain then Covers W (l.out P) ls else ∀ w ∈ W, l.owns P w = true

/-- The backward pass if the input of the network requires no gradients. -/
def deadBack (P : Cart) : List (TLayer F β) → Prog (BSt F) (NMsg F)
  | [] => []
  | l :: ls => (if l.plain then deadBack (l.out P) ls else netBack (l.out P) ls) ++
      (backProg (closeSegs (l.segs P)) ++ [dropPhase (l.cuts P).length (l.has P)])

variable {W : List Nat}

omit [Field F] in
theorem gate_on {b : Nat → Bool} (p : CProg (List (NSt F)) (NSt F) (NMsg F)) (h : ∀ w ∈ W, b w = true) :
    List.Forall₂ (fun ph ph' => ∀ T, ∀ w ∈ W, ph T w = ph' T w) (p.gate b) p := by
  induction p with
  | nil => exact .nil
  | cons ph p ih => exact .cons (fun T w hw => funext fun x => if_pos (h w hw)) ih

omit [Field F] in
theorem gate_off {b : Nat → Bool} (p : CProg (List (NSt F)) (NSt F) (NMsg F)) (h : ∀ w ∈ W, b w = false) :
    List.Forall₂ (fun ph ph' => ∀ T, ∀ w ∈ W, ph T w = ph' T w) (p.gate b) p.skip := by
  induction p with
  | nil => exact .nil
  | cons ph p ih => exact .cons (fun T w hw => funext fun x => if_neg (by simp [h w hw])) ih

/-- Everybody's input requires gradients. -/
theorem backL_live (P : Cart) {live : Nat → Bool} (h : ∀ w ∈ W, live w = true) (l : TLayer F β) :
    Agree W (l.backL P live) (l.back P) := by
  refine Agree.append (agree_backProg ?_) (Agree.refl _)
  rw [← l.segs_flatten P]
  induction l.segs P with
  | nil => exact .nil
  | cons s ss ih =>
    rw [List.flatMap_cons, List.map_cons, List.flatten_cons]
    refine List.rel_append (gate_on _ fun w hw => ?_) ih
    split
    · exact h w hw
    · simp [TLayer.liveOut, h w hw]

theorem netBackL_live (ls : List (TLayer F β)) : ∀ (P : Cart) {live : Nat → Bool}, (∀ w ∈ W, live w = true) →
    Agree W (netBackL P live ls) (netBack P ls) := by
  induction ls with
  | nil => exact fun _ _ _ => .nil
  | cons l ls ih =>
    intro P live h
    exact Agree.append (ih _ fun w hw => by simp [TLayer.liveOut, h w hw]) (backL_live P h l)

/-- Nobody's input requires gradients, but everybody's output does if the layer has parameters. -/
theorem backL_dead (P : Cart) {live : Nat → Bool} (h : ∀ w ∈ W, live w = false) (l : TLayer F β)
    (ho : l.plain = false → ∀ w ∈ W, l.owns P w = true) :
    Agree W (l.backL P live) (backProg (closeSegs (l.segs P)) ++ [dropPhase (l.cuts P).length (l.has P)]) := by
  refine Agree.append (agree_backProg ?_) (Agree.refl _)
  have key : ∀ ss : List (Bool × CProg (List (NSt F)) (NSt F) (NMsg F)),
      (∀ s ∈ ss, s.1 = false → ∀ w ∈ W, l.liveOut P live w = true) →
      List.Forall₂ (fun ph ph' => ∀ T, ∀ w ∈ W, ph T w = ph' T w)
        (ss.flatMap fun s => CProg.gate (if s.1 then live else l.liveOut P live) s.2) (closeSegs ss) := by
    intro ss
    induction ss with
    | nil => exact fun _ => .nil
    | cons s ss ih =>
      intro hs
      rw [List.flatMap_cons, closeSegs, List.flatMap_cons]
      refine List.rel_append ?_ (ih fun s' h' => hs s' (List.mem_cons_of_mem _ h'))
      obtain ⟨b, p⟩ := s
      cases b with
      | true => exact gate_off p h
      | false => exact gate_on p (hs _ (List.mem_cons_self ..) rfl)
  refine key _ fun s hs he w hw => ?_
  cases hp : l.plain with
  | true =>
    rw [(TLayer.segs_plain P hp).1] at hs
    obtain rfl := List.mem_singleton.1 hs
    cases he
  | false => simp [TLayer.liveOut, ho hp w hw]

theorem netBackL_dead (ls : List (TLayer F β)) : ∀ (P : Cart) {live : Nat → Bool}, (∀ w ∈ W, live w = false) →
    Covers W P ls → Agree W (netBackL P live ls) (deadBack P ls) := by
  induction ls with
  | nil => exact fun _ _ _ _ => .nil
  | cons l ls ih =>
    intro P live h hc
    unfold Covers at hc
    refine Agree.append ?_ (backL_dead P h l fun hp => ?_)
    · split
      · next hp =>
        rw [if_pos hp] at hc
        refine ih _ (fun w hw => ?_) hc
        simp [TLayer.liveOut, h w hw, (TLayer.segs_plain P hp).2.2 w]
      · next hp =>
        rw [if_neg hp] at hc
        exact netBackL_live ls _ fun w hw => by simp [TLayer.liveOut, hc w hw]
    · rw [if_neg (by simp [hp])] at hc
      exact hc

variable {P P' : Cart} {L L' : Layout} {s : List Nat} {l : TLayer F β} {ls : List (TLayer F β)} {t : TorchDtype}
  {X Y : List Nat → F}

/-- The backward pass of a layer whose input requires no gradients. -/
theorem TFits.back_dead (h : TFits W P L l L') (hpl : l.plain = false) (hp : Placed W P L s) {S : Nat → NSt F}
    {B : Nat → BSt F} (hS : Holds W P L t X S) (hG : HoldsG W (l.out P) L' t Y fun w => (B w).s)
    {rest : Nat → List (NSt F)} (hT : ∀ w ∈ W, (B w).tape = snaps (l.cuts P) S w ++ rest w) :
    ProgOK W (backProg (closeSegs (l.segs P)) ++ [dropPhase (l.cuts P).length (l.has P)]) B ∧
    (∀ w ∈ W, (run (backProg (closeSegs (l.segs P)) ++ [dropPhase (l.cuts P).length (l.has P)]) B w).s.err = false) ∧
    ∃ gr, l.Grads P (s, X) Y gr ∧
      ∀ w, (run (backProg (closeSegs (l.segs P)) ++ [dropPhase (l.cuts P).length (l.has P)]) B w).grads =
        gr w :: (B w).grads := by
  obtain ⟨a1, a2, a3⟩ := h.adjoint hp (T := fun w => (B w).tape) hS hG fun w hw => ⟨_, hT w hw⟩
  obtain ⟨p, ss, e, hsep⟩ := l.segs_separate P hpl
  have ok := a1
  rw [← l.segs_flatten P, e] at ok
  obtain ⟨c1, c2⟩ := close_run_cons hsep ok
  rw [← e, l.segs_flatten P] at c2
  rw [← e] at c1
  obtain ⟨b1, b2⟩ := back_run (closeSegs (l.segs P)) (l.cuts P).length (l.has P) B c1
  refine ⟨b1, fun w hw => ?_, _, a3, fun w => ?_⟩
  · rw [b2 w]
    by_contra hne
    have := (c2 w).2 (by simpa using hne)
    rw [a2.calm w hw] at this
    cases this
  · rw [b2 w]
    show (fun _ => _) :: (B w).grads = _
    congr 1
    funext i
    rw [(c2 w).1]

theorem TNetFits.backward_dead (h : TNetFits W P L ls P' L') : ∀ {s : List Nat} {X : List Nat → F} {S : Nat → NSt F}
    {B : Nat → BSt F} {rest : Nat → List (NSt F)}, Placed W P L s → Holds W P L t X S →
    HoldsG W P' L' t Y (fun w => (B w).s) → (∀ w ∈ W, (B w).tape = snaps (netCuts P ls) S w ++ rest w) →
    ProgOK W (deadBack P ls) B ∧ (∀ w ∈ W, (run (deadBack P ls) B w).s.err = false) ∧
    ∃ grs, NetGrads P ls (s, X) Y grs ∧ ∀ w, (run (deadBack P ls) B w).grads = grs.map (fun gr => gr w) ++ (B w).grads := by
  induction h with
  | nil =>
    intro s X S B rest _ _ hG hT
    exact ⟨trivial, hG.calm, [], rfl, fun _ => rfl⟩
  | @cons P L L' P'' L'' l ls h hs ih =>
    intro s X S B rest hp hS hG hT
    have hS' := (h.realises (t := t) (X := X) hp S hS).2
    have hT' : ∀ w ∈ W, (B w).tape = snaps (netCuts (l.out P) ls) (run (l.cuts P).flatten S) w ++
        (snaps (l.cuts P) S w ++ rest w) := fun w hw => by
      rw [hT w hw]
      show snaps (l.cuts P ++ netCuts (l.out P) ls) S w ++ _ = _
      rw [snaps_append, List.append_assoc]
    unfold deadBack
    simp only [run_append, progOK_append]
    cases hpl : l.plain with
    | true =>
      simp only [if_true]
      obtain ⟨a1, a2, grs, a4, a5⟩ := ih (s := (l.seq (s, X)).1) (B := B) (rest := fun w => snaps (l.cuts P) S w ++ rest w)
        (h.placed hp X) hS' hG hT'
      obtain ⟨e1, e2, -⟩ := TLayer.segs_plain P hpl
      have e3 : closeSegs (l.segs P) = (l.adjProg P).skip := by rw [e1]; simp [closeSegs]
      obtain ⟨k1, k2⟩ := skip_run (l.adjProg P) (W := W) (fun u => (run (deadBack (l.out P) ls) B u).tape)
        fun u => (run (deadBack (l.out P) ls) B u).s
      obtain ⟨b1, b2⟩ := back_run (l.adjProg P).skip (l.cuts P).length (l.has P) _ k1
      rw [progOK_append] at b1
      simp only [run_append] at b2
      rw [e3]
      refine ⟨⟨a1, b1⟩, fun w hw => ?_, (fun _ _ => none) :: grs, ⟨_, grs, rfl, ?_, a4⟩, fun w => ?_⟩
      · rw [b2 w, k2]
        exact a2 w hw
      · cases l with
        | map | avg | flat | rep => exact fun _ _ => rfl
        | conv | lin | chan | gen => cases hpl
      · rw [b2 w, a5 w]
        simp [e2 w]
    | false =>
      obtain ⟨a1, a2, a3, grs, a4, a5⟩ := hs.backward (s := (l.seq (s, X)).1) (B := B)
        (rest := fun w => snaps (l.cuts P) S w ++ rest w) (h.placed hp X) hS' hG hT'
      obtain ⟨b1, b2, gr, b4, b5⟩ := h.back_dead hpl hp (B := run (netBack (l.out P) ls) B) hS a2 a3
      rw [progOK_append] at b1
      simp only [run_append] at b2 b5
      refine ⟨⟨a1, b1⟩, b2, gr :: grs, ⟨gr, grs, rfl, b4, a4⟩, fun w => ?_⟩
      rw [if_neg (by simp)]
      rw [b5 w, a5 w]
      rfl

/-- The whole step if the input of the network requires no gradients. -/
theorem TNetFits.train_dead (h : TNetFits W P L ls P' L') {S : Nat → NSt F} {seed : Nat → Tensor F → Tensor F}
    (hp : Placed W P L s) (hS : Holds W P L t X S)
    (hseed : ∀ Z, Holds W P' L' t (tseqNet ls (s, X)).2 Z → HoldsG W P' L' t Y fun w => { Z w with t := seed w (Z w).t }) :
    ProgOK W (tapeProg (netCuts P ls) ++ seedPhase seed :: deadBack P ls) (fun w => ⟨S w, [], []⟩) ∧
    (∀ w ∈ W, (run (tapeProg (netCuts P ls) ++ seedPhase seed :: deadBack P ls) (fun w => ⟨S w, [], []⟩) w).s.err = false) ∧
    ∃ grs, NetGrads P ls (s, X) Y grs ∧
      ∀ w, (run (tapeProg (netCuts P ls) ++ seedPhase seed :: deadBack P ls) (fun w => ⟨S w, [], []⟩) w).grads =
        grs.map fun gr => gr w := by
  obtain ⟨-, hr⟩ := h.forward (t := t) (X := X) hp
  obtain ⟨o1, hH⟩ := hr S hS
  obtain ⟨o2, r2⟩ := tape_run (netCuts P ls) (fun w => (⟨S w, [], []⟩ : BSt F)) o1
  generalize hB : run (tapeProg (netCuts P ls)) (fun w => (⟨S w, [], []⟩ : BSt F)) = B at r2
  obtain ⟨a1, a2, grs, a4, a5⟩ := h.backward_dead (B := sync (seedPhase seed) B) (rest := fun _ => []) hp hS (by
      have := hseed _ hH
      have e : (fun w => (sync (seedPhase seed) B w).s) = fun w => { run (netCuts P ls).flatten S w with
          t := seed w (run (netCuts P ls).flatten S w).t } := by
        funext w
        show ({ (B w).s with t := seed w (B w).s.t } : NSt F) = _
        rw [r2 w]
      rw [e]
      exact this) fun w hw => by
        show (B w).tape = _
        rw [r2 w]
  have hrun : run (tapeProg (netCuts P ls) ++ seedPhase seed :: deadBack P ls) (fun w => (⟨S w, [], []⟩ : BSt F)) =
      run (deadBack P ls) (sync (seedPhase seed) B) := by
    rw [run_append, hB]
    rfl
  refine ⟨progOK_append.2 ⟨o2, ?_⟩, ?_, grs, a4, fun w => ?_⟩
  · rw [hB]
    exact ⟨localPhase_ok _, a1⟩
  · rw [hrun]
    exact a2
  · rw [hrun, a5 w]
    show _ ++ (B w).grads = _
    rw [r2 w, List.append_nil]

end

end Verif.Net
