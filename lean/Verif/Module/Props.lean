import Verif.Module.Model
import Mathlib.Tactic.Ring

/-!
# Layer hooks: properties C32 and C33
-/

namespace Verif

/-- Number of setups in a log. -/
def setups (l : List Ev) : Nat := l.countP fun e => match e with
  | .setup _ => true
  | _ => false

/-- Number of teardowns in a log. -/
def teardowns (l : List Ev) : Nat := l.countP fun e => match e with
  | .teardown => true
  | _ => false

/-- Setups and teardowns alternate, starting with a setup: at every moment at most one setup has not
been followed by a teardown. -/
def Alternate (l : List Ev) : Prop :=
  ∀ t, t <:+ l → teardowns t ≤ setups t ∧ setups t ≤ teardowns t + 1

/-! ## Helpers -/

/-- Invariant of the hooks. -/
structure HookInv (h : Hook) : Prop where
  on : h.isSetup = true → h.work = some h.saved ∧ setups h.log = teardowns h.log + 1
  off : h.isSetup = false → h.work = none ∧ setups h.log = teardowns h.log
  alt : Alternate h.log
  bodies : ∀ s w, Ev.body s w ∈ h.log → w = some s

theorem alternate_cons {e : Ev} {l : List Ev} (h : Alternate l)
    (h' : teardowns (e :: l) ≤ setups (e :: l) ∧ setups (e :: l) ≤ teardowns (e :: l) + 1) :
    Alternate (e :: l) := by
  intro t ht
  rcases List.suffix_cons_iff.1 ht with rfl | ht
  · exact h'
  · exact h t ht

theorem inv_init : HookInv Hook.init := by
  refine ⟨by simp [Hook.init], by simp [Hook.init, setups, teardowns], ?_, by simp [Hook.init]⟩
  intro t ht
  have : t = [] := List.suffix_nil.1 ht
  subst this
  simp [setups, teardowns]

theorem inv_teardown {h : Hook} (hi : HookInv h) (hs : h.isSetup = true) :
    HookInv (teardown h) ∧ (teardown h).isSetup = false := by
  have := hi.on hs
  refine ⟨⟨by simp [teardown], ?_, ?_, ?_⟩, rfl⟩
  · intro _
    refine ⟨rfl, ?_⟩
    simp only [teardown, setups, teardowns, List.countP_cons] at this ⊢
    simp
    exact this.2
  · apply alternate_cons hi.alt
    simp only [setups, teardowns, List.countP_cons] at this ⊢
    simp
    omega
  · intro s w hm
    simp [teardown] at hm
    exact hi.bodies s w hm

theorem inv_setup {h : Hook} (hi : HookInv h) (hs : h.isSetup = false) (s : TStruct) :
    HookInv ⟨true, s, some s, .setup s :: h.log⟩ := by
  have := hi.off hs
  refine ⟨?_, by simp, ?_, ?_⟩
  · intro _
    refine ⟨rfl, ?_⟩
    simp only [setups, teardowns, List.countP_cons] at this ⊢
    simp
    exact this.2
  · apply alternate_cons hi.alt
    simp only [setups, teardowns, List.countP_cons] at this ⊢
    simp
    omega
  · intro s' w hm
    simp at hm
    exact hi.bodies s' w hm

theorem inv_body {h : Hook} (hi : HookInv h) (hs : h.isSetup = true) (s : TStruct)
    (he : h.saved = s) : HookInv (body s h) := by
  have hon := hi.on hs
  refine ⟨fun hh => ?_, fun hh => ?_, ?_, ?_⟩
  · refine ⟨hon.1, ?_⟩
    simp only [body, setups, teardowns, List.countP_cons] at hon ⊢
    simpa using hon.2
  · simp [body, hs] at hh
  · apply alternate_cons hi.alt
    simp only [setups, teardowns, List.countP_cons] at hon ⊢
    simp
    omega
  · intro s' w hm
    simp only [body, List.mem_cons, Ev.body.injEq] at hm
    rcases hm with ⟨rfl, rfl⟩ | hm
    · rw [hon.1, he]
    · exact hi.bodies s' w hm

theorem inv_call {k : SetupKind} {raises : TStruct → Bool} (hk : k ≠ .never) {h : Hook}
    (hi : HookInv h) (s : TStruct) (hr : k = .early → raises s = false) :
    HookInv (call k true raises h s) := by
  unfold call
  split
  · have hd : ∃ h', (if h.isSetup then teardown h else h) = h' ∧ HookInv h' ∧ h'.isSetup = false := by
      cases hs : h.isSetup with
      | true => exact ⟨_, rfl, by simpa using inv_teardown hi hs⟩
      | false => exact ⟨_, rfl, by simpa using ⟨hi, hs⟩⟩
    obtain ⟨h', e, hi', hs'⟩ := hd
    rw [e]
    have hgo := inv_body (inv_setup hi' hs' s) rfl s rfl
    cases k with
    | early => simpa [setup, hr rfl] using hgo
    | late =>
      cases hrs : raises s with
      | true => simpa [setup, hrs] using hi'
      | false => simpa [setup, hrs] using hgo
    | lateAll =>
      cases hrs : raises s with
      | true => simpa [setup, hrs] using hi'
      | false => simpa [setup, hrs] using hgo
    | never => exact absurd rfl hk
  · rename_i hreq
    simp only [requiresReset, Bool.or_eq_true, Bool.not_eq_true', bne_iff_ne, not_or,
      Bool.not_eq_false, Decidable.not_not] at hreq
    exact inv_body hi hreq.1 s hreq.2

theorem inv_calls {k : SetupKind} {raises : TStruct → Bool} (hk : k ≠ .never) (hist : List TStruct)
    (hr : k = .early → ∀ s ∈ hist, raises s = false) : HookInv (calls k true raises hist) := by
  unfold calls
  have : ∀ h, HookInv h → HookInv (hist.foldl (call k true raises) h) := by
    induction hist with
    | nil => exact fun h hi => hi
    | cons s ss ih =>
      intro h hi
      exact ih (fun e s' hs' => hr e s' (List.mem_cons_of_mem _ hs')) _
        (inv_call hk hi s fun e => hr e s List.mem_cons_self)
  exact this _ inv_init

theorem calls_append (k : SetupKind) (a : Bool) (raises : TStruct → Bool) (hist : List TStruct)
    (s : TStruct) : calls k a raises (hist ++ [s]) = call k a raises (calls k a raises hist) s := by
  simp [calls]

/-- After a call that did not raise the layer is set up for its input. -/
theorem after_call {k : SetupKind} {raises : TStruct → Bool} (hk : k ≠ .never) (h : Hook)
    (s : TStruct) (hr : raises s = false) :
    (call k true raises h s).isSetup = true ∧ (call k true raises h s).saved = s := by
  unfold call
  split
  · cases k with
    | early => simp [setup, hr, body]
    | late => simp [setup, hr, body]
    | lateAll => simp [setup, hr, body]
    | never => exact absurd rfl hk
  · rename_i hreq
    simp only [requiresReset, Bool.or_eq_true, Bool.not_eq_true', bne_iff_ne, not_or,
      Bool.not_eq_false, Decidable.not_not] at hreq
    exact hreq

/-! ## C32 -/

/-- C32 for the layers that record their setup (all except batch normalisation), on a participating
worker, for every sequence of inputs: whenever the forward body runs, the resources were built for the
structure of its input; setups and teardowns alternate; after a call, a call with an unchanged
structure only runs the body.  The inputs of layers recording early must not make setup raise; for
the others any inputs are allowed.  Missing: the two cases of `C32_false`. -/
theorem C32_hooks_partial (k : SetupKind) (raises : TStruct → Bool) (hk : k ≠ .never)
    (hist : List TStruct) (hr : k = .early → ∀ s ∈ hist, raises s = false) :
    (∀ s w, Ev.body s w ∈ (calls k true raises hist).log → w = some s) ∧
    Alternate (calls k true raises hist).log ∧
    (∀ s, raises s = false → (calls k true raises (hist ++ [s, s])).log =
      .body s (some s) :: (calls k true raises (hist ++ [s])).log) := by
  have hi := inv_calls hk hist hr
  refine ⟨hi.bodies, hi.alt, fun s hs => ?_⟩
  have hap : hist ++ [s, s] = (hist ++ [s]) ++ [s] := by simp
  have hi2 := inv_call hk hi s (fun _ => hs)
  obtain ⟨h1, h2⟩ := after_call (raises := raises) hk (calls k true raises hist) s hs
  rw [hap, calls_append, calls_append]
  set h := call k true raises (calls k true raises hist) s with hh
  have hreq : requiresReset h s = false := by simp [requiresReset, h1, h2]
  unfold call
  rw [hreq]
  simp only [Bool.false_eq_true, if_false, body]
  rw [(hi2.on h1).1, h2]

def exS1 : TStruct := ⟨some [4, 4], some .float32, some true⟩
def exS2 : TStruct := ⟨some [5, 4], some .float32, some true⟩

example : (calls .late true (fun _ => false) [exS1, exS1, exS2]).log =
    [.body exS2 (some exS2), .setup exS2, .teardown, .body exS1 (some exS1), .body exS1 (some exS1),
      .setup exS1] := by decide
/-- The second input is rejected, then the first comes again. -/
example : (calls .late true (fun s => s == exS2) [exS1, exS2, exS2, exS1]).log =
    [.body exS1 (some exS1), .setup exS1, .teardown, .body exS1 (some exS1), .setup exS1] := by decide

/-- C32 in full is false: a layer recording early whose setup raises (repartition, lines 170-181;
upsampling, lines 149-150) runs its body without resources when called again with the
same input; batch normalisation repeats its setup without teardown on unchanged inputs. -/
theorem C32_false :
    (∃ raises : TStruct → Bool, Ev.body exS1 none ∈ (calls .early true raises [exS1, exS1]).log) ∧
    (calls .never true (fun _ => false) [exS1, exS1]).log =
      [.body exS1 (some exS1), .setup exS1, .body exS1 (some exS1), .setup exS1] ∧
    ¬ Alternate (calls .never true (fun _ => false) [exS1, exS1]).log := by
  refine ⟨⟨fun _ => true, by decide⟩, by decide, ?_⟩
  intro h
  have := h _ (List.suffix_refl _)
  revert this
  decide

/-! ## C33 -/

theorem subsize_lt {P i a b : Nat} (hi : i < P) (h : a + P ≤ b) : subsize P i a < subsize P i b := by
  unfold subsize
  have hP : 0 < P := by omega
  have ha := Nat.div_add_mod a P
  have hb := Nat.div_add_mod b P
  have hra := Nat.mod_lt a hP
  have hrb := Nat.mod_lt b hP
  have hq : a / P + 1 ≤ b / P := by
    have h1 := Nat.div_le_div_right (c := P) h
    rwa [Nat.add_div_right a hP] at h1
  rcases Nat.lt_or_ge (a / P + 1) (b / P) with hlt | hge
  · split <;> split <;> omega
  · have he : b / P = a / P + 1 := by omega
    rw [he, Nat.mul_add, Nat.mul_one] at hb
    have : a % P ≤ b % P := by omega
    split <;> split <;> omega

theorem getD_computeSubshape {Ps is ns : List Nat} (h1 : is.length = Ps.length)
    (h2 : ns.length = Ps.length) {d : Nat} (hd : d < Ps.length) :
    (computeSubshape Ps is ns).getD d 0 = subsize (Ps.getD d 0) (is.getD d 0) (ns.getD d 0) := by
  induction Ps generalizing is ns d with
  | nil => simp at hd
  | cons P Ps ih =>
    match is, ns with
    | i :: is, n :: ns =>
      rw [computeSubshape_cons]
      cases d with
      | zero => rfl
      | succ d =>
        simp only [List.getD_cons_succ]
        exact ih (by simpa using h1) (by simpa using h2) (by simpa using hd)
    | [], _ => simp at h1
    | _ :: _, [] => simp at h2

theorem resets_eq {k : SetupKind} (hk : k ≠ .never) (P : Cart) (hist : List TStruct) (a g : TStruct)
    (w : Nat) : resets k P (hist ++ [a]) g w = (localStruct P a w != localStruct P g w) := by
  unfold resets
  rw [List.map_append, List.map_cons, List.map_nil, calls_append]
  obtain ⟨h1, h2⟩ := after_call (raises := fun _ => false) hk
    (calls k true (fun _ => false) (hist.map fun g => localStruct P g w)) (localStruct P a w) rfl
  unfold requiresReset
  rw [h1, h2]
  rfl

/-- C33, what holds: on the first call all workers set up; with an unchanged global structure none
does; when type or `requires_grad` or the number of dimensions changes, or some extent changes by at
least the number of workers in that dimension, all do.  Missing: smaller changes of extents, see
`C33_false`. -/
theorem C33_agree_partial (k : SetupKind) (hk : k ≠ .never) (P : Cart) (h : P.WF)
    (hist : List TStruct) (a g : TStruct) :
    (∀ w ∈ P.members, resets k P [] g w = true) ∧
    (a = g → ∀ w ∈ P.members, resets k P (hist ++ [a]) g w = false) ∧
    (a.dtype ≠ g.dtype ∨ a.requiresGrad ≠ g.requiresGrad ∨
      (∃ s t, a.shape = some s ∧ g.shape = some t ∧ s.length = P.shape.length ∧
        t.length = P.shape.length ∧ ∃ d < P.shape.length,
          s.getD d 0 + P.shape.getD d 0 ≤ t.getD d 0 ∨ t.getD d 0 + P.shape.getD d 0 ≤ s.getD d 0) →
      ∀ w ∈ P.members, resets k P (hist ++ [a]) g w = true) := by
  refine ⟨fun w _ => rfl, fun e w _ => by rw [resets_eq hk, e]; simp, fun hc w hw => ?_⟩
  rw [resets_eq hk, bne_iff_ne]
  intro e
  simp only [localStruct, if_pos hw, TStruct.mk.injEq] at e
  rcases hc with hc | hc | ⟨s, t, hs, ht, hls, hlt, d, hd, hcmp⟩
  · exact hc e.2.1
  · exact hc e.2.2
  · have e1 := e.1
    rw [hs, ht, Option.map_some, Option.map_some, Option.some.injEq] at e1
    have hlc : (P.coord w).length = P.shape.length := length_getCoords _ _
    have hi : (P.coord w).getD d 0 < P.shape.getD d 0 := inBounds_getD (coords_inBounds h hw) hd
    have e2 := congrArg (fun l => l.getD d 0) e1
    beta_reduce at e2
    rw [getD_computeSubshape hlc hls hd, getD_computeSubshape hlc hlt hd] at e2
    rcases hcmp with hcmp | hcmp
    · exact absurd e2 (Nat.ne_of_lt (subsize_lt hi hcmp))
    · exact absurd e2.symm (Nat.ne_of_lt (subsize_lt hi hcmp))

/-- Two workers. -/
def exP2 : Cart := ⟨[0, 1], [2], some 0⟩

def exG (n : Nat) : TStruct := ⟨some [n], some .float32, some true⟩

example : resets .early exP2 [exG 10] (exG 12) 0 = true ∧
    resets .early exP2 [exG 10] (exG 12) 1 = true := by decide

/-- C33 in full is false: when the global length grows from 10 to 11 over two workers, worker 0 redoes
its setup (5 to 6) and worker 1 does not (5 to 5), for every kind of recording; and then the call
never finishes on worker 0, whatever the schedule, because worker 1 does not enter the collective
operation of the setup. -/
theorem C33_false (k : SetupKind) (hk : k ≠ .never) :
    resets k exP2 [exG 10] (exG 11) 0 = true ∧ resets k exP2 [exG 10] (exG 11) 1 = false ∧
    ∀ n pc, Coll.Exec exP2.members (setupProg k exP2 [exG 10] (exG 11)) (fun _ => exP2.members)
      (fun _ _ _ => False) n (fun _ => 0) pc →
      ¬ Coll.Finished exP2.members (setupProg k exP2 [exG 10] (exG 11)) pc := by
  have h0 : resets k exP2 [exG 10] (exG 11) 0 = true := by
    cases k <;> decide
  have h1 : resets k exP2 [exG 10] (exG 11) 1 = false := by
    cases k <;> first | decide | exact absurd rfl hk
  refine ⟨h0, h1, ?_⟩
  have p0 : setupProg k exP2 [exG 10] (exG 11) 0 = [.post (), .wait ()] := by
    unfold setupProg; rw [h0]; rfl
  have p1 : setupProg k exP2 [exG 10] (exG 11) 1 = [] := by
    unfold setupProg; rw [h1]; rfl
  have key : ∀ n pc, Coll.Exec exP2.members (setupProg k exP2 [exG 10] (exG 11))
      (fun _ => exP2.members) (fun _ _ _ => False) n (fun _ => 0) pc → pc 0 ≤ 1 := by
    intro n
    induction n with
    | zero =>
      intro pc he
      cases he
      exact Nat.zero_le _
    | succ n ih =>
      intro pc he
      cases he with
      | step hp hs =>
        rename_i pc1
        have hle := ih pc1 hp
        cases hs with
        | post w c hw hi =>
          unfold Coll.advance
          by_cases e : 0 = w
          · subst e
            rw [p0] at hi
            have : pc1 0 = 0 := by
              rcases Nat.lt_or_ge (pc1 0) 1 with h | h
              · omega
              · have : pc1 0 = 1 := by omega
                rw [this] at hi
                simp at hi
            simp [this]
          · simpa [e] using hle
        | wait w c hw hi hh =>
          exfalso
          rcases hh with hh | hh
          · have := hh 1 (by decide)
            unfold Coll.Posted at this
            rw [p1] at this
            simp at this
          · exact hh
  intro n pc he hf
  have h2 := hf 0 (by decide)
  rw [p0] at h2
  have := key n pc he
  simp at h2
  omega

/-- A second way in which C33 fails, for layers with output workers that are not input workers
(repartition to other workers): such a worker never redoes its setup after the first call, whereas the
input workers do whenever the change is large enough for all of them to notice. -/
theorem C33_false_output_worker (k : SetupKind) (hk : k ≠ .never) (P : Cart) (v : Nat)
    (hv : v ∉ P.members) (hist : List TStruct) (a g : TStruct) :
    resets k P (hist ++ [a]) g v = false ∧
    (a.dtype ≠ g.dtype → ∀ w ∈ P.members, resets k P (hist ++ [a]) g w = true) := by
  refine ⟨?_, fun hd w hw => ?_⟩
  · rw [resets_eq hk]
    simp [localStruct, hv]
  · rw [resets_eq hk, bne_iff_ne]
    intro e
    simp only [localStruct, if_pos hw, TStruct.mk.injEq] at e
    exact hd e.2.1

example : resets .early exP2 [exG 10] (exG 20) 0 = true ∧
    resets .early exP2 [exG 10] (exG 20) 1 = true ∧
    resets .early exP2 [exG 10] (exG 20) 2 = false := by decide

end Verif
