import Verif.Collective.Lemmas

/-!
# Lemmas on the exchange of tensor structures and on termination
-/

namespace Verif

/-! ## Maxima with a sentinel -/

theorem zipWith_max_self (v : List Int) : List.zipWith max v v = v := by
  induction v with
  | nil => rfl
  | cons x xs ih => simp

theorem zipWith_max_blank {v : List Int} (hv : ∀ x ∈ v, -1 ≤ x) :
    List.zipWith max v (List.replicate v.length (-1)) = v := by
  induction v with
  | nil => rfl
  | cons x xs ih =>
    have h1 := hv x (by simp)
    simp [List.replicate_succ, ih fun y hy => hv y (by simp [hy]), h1]

theorem zipWith_blank_max {v : List Int} (hv : ∀ x ∈ v, -1 ≤ x) :
    List.zipWith max (List.replicate v.length (-1)) v = v := by
  induction v with
  | nil => rfl
  | cons x xs ih =>
    have h1 := hv x (by simp)
    simp [List.replicate_succ, ih fun y hy => hv y (by simp [hy]), h1]

theorem foldl_max_keep {v : List Int} (hv : ∀ x ∈ v, -1 ≤ x) (l : List (List Int))
    (hl : ∀ c ∈ l, c = v ∨ c = List.replicate v.length (-1)) : l.foldl (List.zipWith max) v = v := by
  induction l with
  | nil => rfl
  | cons c cs ih =>
    have : List.zipWith max v c = v := by
      rcases hl c (by simp) with rfl | rfl
      · exact zipWith_max_self _
      · exact zipWith_max_blank hv
    rw [List.foldl_cons, this]
    exact ih fun c hc => hl c (by simp [hc])

theorem foldl_max_find {v : List Int} (hv : ∀ x ∈ v, -1 ≤ x) (l : List (List Int))
    (hl : ∀ c ∈ l, c = v ∨ c = List.replicate v.length (-1)) (hmem : v ∈ l) :
    l.foldl (List.zipWith max) (List.replicate v.length (-1)) = v := by
  induction l with
  | nil => simp at hmem
  | cons c cs ih =>
    rw [List.foldl_cons]
    have hcs : ∀ c ∈ cs, c = v ∨ c = List.replicate v.length (-1) := fun c hc => hl c (by simp [hc])
    by_cases hc : c = v
    · rw [hc, zipWith_blank_max hv]
      exact foldl_max_keep hv cs hcs
    · rcases hl c (by simp) with h1 | h1
      · exact absurd h1 hc
      · rw [h1, zipWith_max_self]
        refine ih hcs ?_
        rcases List.mem_cons.1 hmem with h2 | h2
        · exact absurd h2.symm hc
        · exact h2

/-- If all buffers are `v` or blank and one is `v`, the maximum is `v`. -/
theorem maxResult_eq {v : List Int} (hv : ∀ x ∈ v, -1 ≤ x) {l : List (List Int)}
    (hl : ∀ c ∈ l, c = v ∨ c = List.replicate v.length (-1)) (hmem : v ∈ l) :
    maxResult l = some v := by
  cases l with
  | nil => simp at hmem
  | cons b rest =>
    have hlen : ∀ c ∈ b :: rest, c.length = v.length := by
      intro c hc
      rcases hl c hc with rfl | rfl <;> simp
    have hall : (rest.all fun c => c.length == b.length) = true := by
      rw [List.all_eq_true]
      intro c hc
      simp [hlen c (by simp [hc]), hlen b (by simp)]
    simp only [maxResult, hall, if_true]
    congr 1
    have hrest : ∀ c ∈ rest, c = v ∨ c = List.replicate v.length (-1) :=
      fun c hc => hl c (by simp [hc])
    by_cases hb : b = v
    · rw [hb]; exact foldl_max_keep hv rest hrest
    · rcases hl b (by simp) with h1 | h1
      · exact absurd h1 hb
      · rw [h1]
        refine foldl_max_find hv rest hrest ?_
        rcases List.mem_cons.1 hmem with h2 | h2
        · exact absurd h2.symm hb
        · exact h2

theorem foldl_singletons (l : List Int) (a : Int) :
    (l.map fun x => [x]).foldl (List.zipWith max) [a] = [l.foldl max a] := by
  induction l generalizing a with
  | nil => rfl
  | cons x xs ih => simp [ih]

theorem le_foldl_max (l : List Int) (a : Int) :
    a ≤ l.foldl max a ∧ (∀ x ∈ l, x ≤ l.foldl max a) ∧ (l.foldl max a = a ∨ l.foldl max a ∈ l) := by
  induction l generalizing a with
  | nil => simp
  | cons x xs ih =>
    obtain ⟨h1, h2, h3⟩ := ih (max a x)
    rw [List.foldl_cons]
    refine ⟨le_trans (le_max_left _ _) h1, ?_, ?_⟩
    · intro y hy
      rcases List.mem_cons.1 hy with rfl | hy
      · exact le_trans (le_max_right _ _) h1
      · exact h2 y hy
    · rcases h3 with h3 | h3
      · rw [h3]
        rcases max_choice a x with h4 | h4
        · exact Or.inl h4
        · right; rw [h4]; simp
      · exact Or.inr (List.mem_cons_of_mem _ h3)

/-- Maximum of one-element buffers. -/
theorem maxResult_singletons {l : List Int} (hl : l ≠ []) :
    ∃ m, maxResult (l.map fun x => [x]) = some [m] ∧ (∀ x ∈ l, x ≤ m) ∧ m ∈ l := by
  cases l with
  | nil => exact absurd rfl hl
  | cons a l =>
    refine ⟨l.foldl max a, ?_, ?_, ?_⟩
    · simp only [List.map_cons, maxResult]
      rw [if_pos, foldl_singletons]
      rw [List.all_eq_true]
      intro c hc
      obtain ⟨x, _, rfl⟩ := List.mem_map.1 hc
      rfl
    · intro x hx
      obtain ⟨h1, h2, _⟩ := le_foldl_max l a
      rcases List.mem_cons.1 hx with rfl | hx
      · exact h1
      · exact h2 x hx
    · obtain ⟨_, _, h3⟩ := le_foldl_max l a
      rcases h3 with h3 | h3
      · rw [h3]; simp
      · exact List.mem_cons_of_mem _ h3

/-! ## Calls of a group -/

theorem struct_calls_real {send recv : Option (List Nat)} {shape : List Nat} {dtype : TorchDtype}
    {rg : Bool} {d : Option Int} {g : List Nat} {id : Nat} (hs : send = some g)
    (hid : torchToInt dtype = some id) :
    callsOn (structActs send recv shape dtype rg d) g =
      [[(id : Int)], [if rg then 1 else 0], [(shape.length : Int)],
        shape.map fun (n : Nat) => (n : Int)] := by
  unfold structActs
  subst hs
  simp only [hid]
  rw [callsOn_append, callsOn_append, callsOn_append]
  have h1 : callsOn ([.wait g 0, .wait g 1, .wait g 2, .wait g 3] : List (Act (List Int))) g = [] := by
    simp [callsOn_wait, callsOn_nil]
  rw [h1, callsOn_post_eq, callsOn_post_eq, callsOn_post_eq, callsOn_post_eq, callsOn_nil]
  cases recv with
  | none => simp [callsOn_nil]
  | some g' =>
    by_cases he : g = g'
    · subst he
      simp [samePart, callsOn_nil]
    · have hs : samePart (some g) (some g') = false := by simpa [samePart] using he
      have hg : g' ≠ g := fun e => he e.symm
      simp only [hs, Bool.not_false, if_true]
      rw [callsOn_append, callsOn_post_ne hg, callsOn_post_ne hg, callsOn_post_ne hg, callsOn_wait,
        callsOn_wait, callsOn_wait, callsOn_wait, callsOn_nil]
      cases d with
      | none => simp [callsOn_nil]
      | some d =>
        by_cases hd : 0 ≤ d
        · simp [hd, callsOn_post_ne hg, callsOn_nil]
        · simp [hd, callsOn_nil]

theorem struct_calls_blank {send recv : Option (List Nat)} {shape : List Nat} {dtype : TorchDtype}
    {rg : Bool} {d : Option Int} {g : List Nat} (hs : send ≠ some g) (hr : recv = some g) :
    callsOn (structActs send recv shape dtype rg d) g =
      [[-1], [-1], [-1]] ++
        (match d with
          | some d => if 0 ≤ d then [List.replicate d.toNat (-1)] else []
          | none => []) := by
  have hsame : samePart send recv = false := by
    subst hr
    cases send with
    | none => rfl
    | some g' =>
      simp only [samePart, beq_eq_false_iff_ne, ne_eq]
      exact fun e => hs (by rw [e])
  unfold structActs
  subst hr
  simp only [hsame, Bool.not_false, if_true]
  rw [callsOn_append, callsOn_append, callsOn_append, callsOn_append, callsOn_post_eq,
    callsOn_post_eq, callsOn_post_eq, callsOn_wait, callsOn_wait, callsOn_wait, callsOn_wait,
    callsOn_nil]
  have hd : callsOn (match d with
      | some d => if 0 ≤ d then ([.post g (List.replicate d.toNat (-1))] : List (Act (List Int)))
          else []
      | none => []) g = (match d with
      | some d => if 0 ≤ d then [List.replicate d.toNat (-1)] else []
      | none => []) := by
    cases d with
    | none => rfl
    | some d =>
      by_cases hd : 0 ≤ d
      · simp [hd, callsOn_post_eq, callsOn_nil]
      · simp [hd, callsOn_nil]
  cases send with
  | none =>
    simp [callsOn_nil]
    exact hd
  | some g' =>
    have hg : g' ≠ g := fun e => hs (by rw [e])
    cases torchToInt dtype with
    | none =>
      simp [callsOn_nil, callsOn_wait]
      exact hd
    | some id =>
      simp [callsOn_post_ne hg, callsOn_nil, callsOn_wait]
      exact hd

/-- A group in which every member sends to the group or receives from it. -/
structure StructGroup (I : StructIn) (g : List Nat) : Prop where
  side : ∀ u ∈ g, I.send u = some g ∨ (I.send u ≠ some g ∧ I.recv u = some g)

section
variable {I : StructIn} {g : List Nat} {sh : List Nat} {dt : TorchDtype}

theorem torchToInt_some (t : TorchDtype) : ∃ n, torchToInt t = some n ∧ intToTorch n = some t := by
  exact C31_torch_int_roundtrip t

/-- The `k`-th buffer of a member, in the two cases. -/
def structBuf (I : StructIn) (g : List Nat) (len : Nat) (k : Nat) (u : Nat) : List Int :=
  if I.send u = some g then
    [[((torchToInt (I.dtype u)).getD 0 : Int)], [if I.rg u then 1 else 0],
      [((I.shape u).length : Int)], (I.shape u).map fun (n : Nat) => (n : Int)].getD k []
  else [[-1], [-1], [-1], List.replicate len (-1)].getD k []

theorem struct_matched_early (h : StructGroup I g) (d : Nat → Option Int) {k : Nat} (hk : k < 3)
    (len : Nat) : matched (I.acts d) g k = some (g.map (structBuf I g len k)) := by
  apply matched_eq
  intro u hu
  unfold StructIn.acts structBuf
  obtain ⟨n, hn, _⟩ := torchToInt_some (I.dtype u)
  rcases h.side u hu with h1 | ⟨h1, h2⟩
  · rw [struct_calls_real h1 hn, if_pos h1, hn]
    have : k = 0 ∨ k = 1 ∨ k = 2 := by omega
    rcases this with rfl | rfl | rfl <;> rfl
  · rw [struct_calls_blank h1 h2, if_neg h1]
    have : k = 0 ∨ k = 1 ∨ k = 2 := by omega
    rcases this with rfl | rfl | rfl <;> rfl

theorem struct_dim (h : StructGroup I g) (hreal : ∃ u ∈ g, I.send u = some g)
    (hsh : ∀ u ∈ g, I.send u = some g → (I.shape u).length = sh.length) {u : Nat}
    (hr : I.recv u = some g) : I.dim u = some (sh.length : Int) := by
  unfold StructIn.dim
  rw [hr]
  simp only []
  rw [struct_matched_early h _ (by omega) sh.length, Option.bind_some]
  rw [maxResult_eq (v := [(sh.length : Int)]) (by intro x hx; simp at hx; omega)]
  · rfl
  · intro c hc
    obtain ⟨v, hv, rfl⟩ := List.mem_map.1 hc
    unfold structBuf
    split
    · rename_i hs
      left
      simp [hsh v hv hs]
    · right; rfl
  · obtain ⟨v, hv, hs⟩ := hreal
    refine List.mem_map.2 ⟨v, hv, ?_⟩
    unfold structBuf
    rw [if_pos hs]
    simp [hsh v hv hs]

theorem struct_matched_shape (h : StructGroup I g) (hreal : ∃ u ∈ g, I.send u = some g)
    (hsh : ∀ u ∈ g, I.send u = some g → (I.shape u).length = sh.length) :
    matched (I.acts I.dim) g 3 = some (g.map (structBuf I g sh.length 3)) := by
  apply matched_eq
  intro u hu
  unfold StructIn.acts structBuf
  obtain ⟨n, hn, _⟩ := torchToInt_some (I.dtype u)
  rcases h.side u hu with h1 | ⟨h1, h2⟩
  · rw [struct_calls_real h1 hn, if_pos h1, hn]
    rfl
  · rw [struct_calls_blank h1 h2, if_neg h1, struct_dim h hreal hsh h2]
    have : (0 : Int) ≤ (sh.length : Int) := by omega
    simp [this]

/-- The structure obtained by a receiver whose group has consistent senders. -/
theorem struct_received (h : StructGroup I g) (hreal : ∃ u ∈ g, I.send u = some g)
    (hsh : ∀ u ∈ g, I.send u = some g → I.shape u = sh ∧ I.dtype u = dt) {w : Nat}
    (hs : I.send w ≠ some g) (hr : I.recv w = some g) :
    broadcastStructure I w = some ⟨some sh, some dt,
      some (decide (∃ u ∈ g, I.send u = some g ∧ I.rg u = true))⟩ := by
  have hlen : ∀ u ∈ g, I.send u = some g → (I.shape u).length = sh.length :=
    fun u hu hh => by rw [(hsh u hu hh).1]
  obtain ⟨id, hid, hback⟩ := torchToInt_some dt
  have hsame : samePart (I.send w) (I.recv w) = false := by
    rw [hr]
    cases hsw : I.send w with
    | none => rfl
    | some g' =>
      simp only [samePart, beq_eq_false_iff_ne, ne_eq]
      exact fun e => hs (by rw [hsw, e])
  -- shape
  have h3 : (matched (I.acts I.dim) g 3).bind maxResult = some (sh.map fun (n : Nat) => (n : Int)) := by
    rw [struct_matched_shape h hreal hlen, Option.bind_some]
    apply maxResult_eq
    · intro x hx
      obtain ⟨n, _, rfl⟩ := List.mem_map.1 hx
      omega
    · intro c hc
      obtain ⟨v, hv, rfl⟩ := List.mem_map.1 hc
      unfold structBuf
      split
      · rename_i hh
        left
        simp [(hsh v hv hh).1]
      · right; simp
    · obtain ⟨v, hv, hh⟩ := hreal
      refine List.mem_map.2 ⟨v, hv, ?_⟩
      unfold structBuf
      rw [if_pos hh]
      simp [(hsh v hv hh).1]
  -- dtype
  have h0 : (matched (I.acts I.dim) g 0).bind maxResult = some [(id : Int)] := by
    rw [struct_matched_early h _ (by omega) 0, Option.bind_some]
    apply maxResult_eq
    · intro x hx; simp at hx; omega
    · intro c hc
      obtain ⟨v, hv, rfl⟩ := List.mem_map.1 hc
      unfold structBuf
      split
      · rename_i hh
        left
        simp [(hsh v hv hh).2, hid]
      · right; rfl
    · obtain ⟨v, hv, hh⟩ := hreal
      refine List.mem_map.2 ⟨v, hv, ?_⟩
      unfold structBuf
      rw [if_pos hh]
      simp [(hsh v hv hh).2, hid]
  -- requires_grad
  have h1 : ∃ m : Int, (matched (I.acts I.dim) g 1).bind maxResult = some [m] ∧
      (m != 0) = decide (∃ u ∈ g, I.send u = some g ∧ I.rg u = true) := by
    rw [struct_matched_early h _ (by omega) 0, Option.bind_some]
    have he : g.map (structBuf I g 0 1) = (g.map fun u => if I.send u = some g then
        (if I.rg u then (1 : Int) else 0) else -1).map fun x => [x] := by
      rw [List.map_map]
      apply List.map_congr_left
      intro u hu
      unfold structBuf
      simp only [Function.comp]
      split <;> rfl
    rw [he]
    obtain ⟨v, hv, hh⟩ := hreal
    have hne : (g.map fun u => if I.send u = some g then
        (if I.rg u then (1 : Int) else 0) else -1) ≠ [] := by
      intro e
      rw [List.map_eq_nil_iff] at e
      rw [e] at hv
      simp at hv
    obtain ⟨m, hm, hle, hmem⟩ := maxResult_singletons hne
    refine ⟨m, hm, ?_⟩
    have hm0 : 0 ≤ m := by
      have := hle _ (List.mem_map.2 ⟨v, hv, rfl⟩)
      rw [if_pos hh] at this
      split at this <;> omega
    by_cases hex : ∃ u ∈ g, I.send u = some g ∧ I.rg u = true
    · rw [decide_eq_true hex]
      obtain ⟨u, hu, hu1, hu2⟩ := hex
      have := hle _ (List.mem_map.2 ⟨u, hu, rfl⟩)
      rw [if_pos hu1, hu2] at this
      simp at this
      simp
      omega
    · rw [decide_eq_false hex]
      obtain ⟨u, hu, rfl⟩ := List.mem_map.1 hmem
      push Not at hex
      by_cases hsu : I.send u = some g
      · have := hex u hu hsu
        simp [hsu] 
        simpa using this
      · rw [if_neg hsu] at hm0
        omega
  obtain ⟨m, h1, hm⟩ := h1
  have hcomp : (Int.toNat ∘ fun (n : Nat) => (n : Int)) = _root_.id := rfl
  unfold broadcastStructure
  have hid0 : (0 : Int) ≤ (id : Int) := by omega
  cases hsw : I.send w with
  | none =>
    rw [hr]
    simp only [samePart, Bool.not_false, if_true, h3, h0, h1, hid0, Int.toNat_natCast, hback, hm,
      List.map_map]
    rw [hcomp, List.map_id]
  | some g' =>
    rw [hsw, hr] at hsame
    rw [hr]
    simp only [hsame, Bool.not_false, if_true, h3, h0, h1, hid0, Int.toNat_natCast, hback, hm,
      List.map_map]
    rw [hcomp, List.map_id]

theorem struct_own {w : Nat} (hs : I.send w = some g) (hr : I.recv w = some g) :
    broadcastStructure I w = some ⟨some (I.shape w), some (I.dtype w), some (I.rg w)⟩ := by
  unfold broadcastStructure
  rw [hs, hr]
  simp [samePart]

theorem struct_send_only {w : Nat} (hr : I.recv w = none) :
    broadcastStructure I w = some ⟨none, none, none⟩ := by
  unfold broadcastStructure
  rw [hr]
  cases I.send w <;> rfl

end

/-! ## Termination -/

/-- A call is safe when, whatever waits complete early: as long as some worker has not finished, some
worker can take a step; executions are bounded and can be continued to the end; and every worker
waits for everything it posts. -/
def SafeRun {C : Type} (W : List Nat) (acts : Nat → List (Act C)) : Prop :=
  ∀ early : (Nat → Nat) → Nat → (List Nat × Nat) → Prop,
    (∀ pc w, w ∈ W → pc w < (instrs [] (acts w)).length →
      ∃ pc', Coll.Step W (fun w => instrs [] (acts w)) (fun c => c.1) early pc pc') ∧
    (∀ n pc, Coll.Exec W (fun w => instrs [] (acts w)) (fun c => c.1) early n (fun _ => 0) pc →
      n ≤ (W.map fun w => (instrs [] (acts w)).length).sum ∧
      ∃ m pc', Coll.Exec W (fun w => instrs [] (acts w)) (fun c => c.1) early m pc pc' ∧
        Coll.Finished W (fun w => instrs [] (acts w)) pc') ∧
    ∀ w ∈ W, ∀ c, Coll.Instr.post c ∈ instrs [] (acts w) → Coll.Instr.wait c ∈ instrs [] (acts w)

theorem wait_mem_instrs {C : Type} (seen : List (List Nat)) (as : List (Act C)) (g : List Nat)
    (k : Nat) : Coll.Instr.wait (g, k) ∈ instrs seen as ↔ Act.wait g k ∈ as := by
  induction as generalizing seen with
  | nil => simp [instrs]
  | cons a as ih =>
    cases a with
    | post g' c => simp [instrs, ih]
    | wait g' k' => simp [instrs, ih]

theorem post_mem_instrs {C : Type} (seen : List (List Nat)) (as : List (Act C)) (g : List Nat)
    (k : Nat) : Coll.Instr.post (g, k) ∈ instrs seen as ↔
      seen.count g ≤ k ∧ k < seen.count g + (callsOn as g).length := by
  induction as generalizing seen with
  | nil => simp [instrs, callsOn]
  | cons a as ih =>
    cases a with
    | post g' c =>
      by_cases he : g' = g
      · subst he
        simp only [instrs, List.mem_cons, ih, callsOn_post_eq, List.length_cons,
          List.count_cons_self, Coll.Instr.post.injEq, Prod.mk.injEq, true_and]
        omega
      · have : (g' :: seen).count g = seen.count g := List.count_cons_of_ne he
        simp only [instrs, List.mem_cons, ih, callsOn_post_ne he, this, Coll.Instr.post.injEq,
          Prod.mk.injEq]
        constructor
        · rintro (⟨h1, _⟩ | h1)
          · exact absurd h1.symm he
          · exact h1
        · exact Or.inr
    | wait g' k' => simp [instrs, ih, callsOn_wait]

theorem safe_of {C : Type} {W : List Nat} (hnd : W.Nodup) {acts : Nat → List (Act C)}
    (hp : ∀ w ∈ W, ∀ g k, Act.wait g k ∈ acts w → ∀ u ∈ g, u ∈ W ∧ k < (callsOn (acts u) g).length)
    (hr : ∀ w ∈ W, (instrs [] (acts w)).Pairwise fun a b =>
      ∀ c' c, a = .wait c' → b = .post c → c'.2 < c.2)
    (hw : ∀ w ∈ W, ∀ g k, k < (callsOn (acts w) g).length → Act.wait g k ∈ acts w) :
    SafeRun W acts := by
  have ho : Coll.Ordered W (fun w => instrs [] (acts w)) (fun c => c.1) (fun c => c.2) := by
    refine ⟨?_, hr⟩
    intro w hw c hc u hu
    have := hp w hw c.1 c.2 ((wait_mem_instrs _ _ _ _).1 hc) u hu
    exact ⟨this.1, (post_mem_instrs [] _ _ _).2 (by simpa using this.2)⟩
  intro early
  refine ⟨fun pc w hw hlt => Coll.no_deadlock ho pc w hw hlt,
    fun n pc he => ⟨Coll.exec_bounded hnd he, Coll.completes ho hnd he⟩, ?_⟩
  intro w hwW c hc
  have := (post_mem_instrs [] _ c.1 c.2).1 hc
  exact (wait_mem_instrs _ _ _ _).2 (hw w hwW c.1 c.2 (by simpa using this))

end Verif
