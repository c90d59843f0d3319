import Verif.Params.Model
import Verif.Conv.Props
import Verif.Linear.Props
import Verif.BatchNorm.Props
import Verif.Loss.Props

/-!
# C70: every parameter is stored once; C71: initial values
-/

namespace Verif

/-! ## Specification -/

/-- The parameters found in `slots` are together a tensor of the given shape, each entry once: entry `l` of worker `w` is
entry `start w + l`. -/
structure StoredOnce (slots : Nat → Slot) (shape : List Nat) (start : Nat → List Nat) : Prop where
  inside : ∀ w s l, slots w = .param s → InBounds l s → InBounds (shiftBy (start w) l) shape
  once : ∀ g, InBounds g shape →
    ∃! p : Nat × List Nat, ∃ s, slots p.1 = .param s ∧ InBounds p.2 s ∧ shiftBy (start p.1) p.2 = g

/-- `numel()` of a parameter; other attributes have none. -/
def Slot.numel : Slot → Nat
  | .param s => s.prod
  | _ => 0

/-- C70, counting: all workers together have as many entries as the sequential layer. -/
theorem C70_count {slots : Nat → Slot} {shape : List Nat} {start : Nat → List Nat} (h : StoredOnce slots shape start)
    {W : List Nat} (hW : W.Nodup) (hs : ∀ w s, slots w = .param s → w ∈ W) :
    (W.map fun w => (slots w).numel).sum = shape.prod := by
  let cells : Nat → List (List Nat) := fun w =>
    match slots w with
    | .param s => rangeIndex s
    | _ => []
  have hmem : ∀ w l, l ∈ cells w ↔ ∃ s, slots w = .param s ∧ InBounds l s := by
    intro w l
    show l ∈ (match slots w with | .param s => rangeIndex s | _ => []) ↔ _
    cases hw : slots w with
    | param s => simp [mem_rangeIndex]
    | empty => simp
    | buffer s => simp
  let all : List (Nat × List Nat) := W.flatMap fun w => (cells w).map fun l => (w, l)
  have hall : ∀ p, p ∈ all ↔ ∃ s, slots p.1 = .param s ∧ InBounds p.2 s := by
    rintro ⟨w, l⟩
    simp only [all, List.mem_flatMap, List.mem_map, Prod.mk.injEq]
    constructor
    · rintro ⟨w', -, l', hl', rfl, rfl⟩
      exact (hmem _ _).1 hl'
    · rintro ⟨s, e, hl⟩
      exact ⟨w, hs w s e, l, (hmem w l).2 ⟨s, e, hl⟩, rfl, rfl⟩
  have hnd : all.Nodup := by
    refine List.nodup_flatMap.2 ⟨fun w _ => List.Nodup.map (fun a b e => (Prod.mk.inj e).2) ?_, ?_⟩
    · show (match slots w with | .param s => rangeIndex s | _ => []).Nodup
      cases slots w with
      | param s => exact nodup_rangeIndex s
      | empty => exact List.nodup_nil
      | buffer s => exact List.nodup_nil
    · refine hW.pairwise_of_forall_ne fun a _ b _ hab => ?_
      intro p h1 h2
      obtain ⟨l, -, rfl⟩ := List.mem_map.1 h1
      obtain ⟨l', -, e⟩ := List.mem_map.1 h2
      exact hab (Prod.mk.inj e).1.symm
  have hperm : List.Perm (all.map fun p => shiftBy (start p.1) p.2) (rangeIndex shape) := by
    refine (List.perm_ext_iff_of_nodup (List.Nodup.map_on ?_ hnd) (nodup_rangeIndex shape)).2 fun g => ?_
    · intro p hp q hq e
      obtain ⟨s, e1, l1⟩ := (hall p).1 hp
      obtain ⟨s', e2, l2⟩ := (hall q).1 hq
      exact (h.once _ (h.inside _ _ _ e1 l1)).unique ⟨s, e1, l1, rfl⟩ ⟨s', e2, l2, e.symm⟩
    · rw [mem_rangeIndex, List.mem_map]
      constructor
      · rintro ⟨p, hp, rfl⟩
        obtain ⟨s, e1, l1⟩ := (hall p).1 hp
        exact h.inside _ _ _ e1 l1
      · intro hg
        obtain ⟨p, ⟨s, e1, l1, e2⟩, -⟩ := h.once g hg
        exact ⟨p, (hall p).2 ⟨s, e1, l1⟩, e2⟩
  have hlen := hperm.length_eq
  rw [List.length_map, length_rangeIndex, List.length_flatMap] at hlen
  rw [← hlen]
  congr 1
  refine List.map_congr_left fun w _ => ?_
  rw [List.length_map]
  show _ = (match slots w with | .param s => rangeIndex s | _ => []).length
  cases slots w with
  | param s => exact (length_rangeIndex s).symm
  | empty => rfl
  | buffer s => rfl

/-! ## Blocks -/

theorem StoredOnce.of_blocks {slots : Nat → Slot} {L : Layout} {idx : Nat → List Nat} {B : Nat → Prop}
    (hs : ∀ w, B w → slots w = .param (L.shapeAt (idx w))) (hn : ∀ w s, slots w = .param s → B w)
    (hb : ∀ w, B w → InBounds (idx w) L.pshape) (hu : ∀ i, InBounds i L.pshape → ∃ w, B w ∧ idx w = i)
    (hi : ∀ v w, B v → B w → idx v = idx w → v = w) : StoredOnce slots L.global fun w => L.startAt (idx w) := by
  have hl : ∀ w, B w → (idx w).length = L.length := fun w hw => by rw [(hb w hw).length_eq, L.length_pshape]
  refine ⟨fun w s l e hl' => ?_, fun g hg => ?_⟩
  · have hB := hn w s e
    rw [hs w hB] at e
    cases e
    exact (L.unique_owner _).2 _ (hb w hB) ((Layout.inBox_shift (hl w hB)).2 hl').2
  · obtain ⟨i, ⟨hi1, hi2⟩, hi3⟩ := (L.unique_owner g).1 hg
    obtain ⟨w, hB, rfl⟩ := hu i hi1
    obtain ⟨e1, e2⟩ := exists_shift hi2
    have hsl : (L.startAt (idx w)).length = L.length := Layout.length_startAt (hl w hB)
    refine ⟨(w, List.zipWith (· - ·) g (L.startAt (idx w))), ⟨_, hs w hB, ?_, e1⟩, ?_⟩
    · exact (Layout.inBox_shift (hl w hB)).1 ⟨e2.trans hsl, by rw [e1]; exact hi2⟩
    · rintro ⟨v, l⟩ ⟨s, f1, f2, f3⟩
      have hv := hn v s f1
      have hf := hs v hv
      rw [f1] at hf
      cases hf
      obtain ⟨k1, k2⟩ := (Layout.inBox_shift (hl v hv)).2 f2
      dsimp only at f3
      rw [f3] at k2
      obtain rfl := hi v w hv hB (hi3 _ ⟨hb v hv, k2⟩)
      refine Prod.ext rfl (shiftBy_inj (s := L.startAt (idx v)) (k1.trans hsl.symm) e2 ?_)
      exact f3.trans e1.symm

theorem Cart.WF.exists_coord {P : Cart} (hP : P.WF) {i : List Nat} (hi : InBounds i P.shape) :
    ∃ w, w ∈ P.members ∧ P.coord w = i := by
  have hm : P.members.map P.coord = rangeIndex P.shape := map_coords_members hP.nodup hP.size
  have := mem_rangeIndex.2 hi
  rw [← hm, List.mem_map] at this
  exact this

/-- Blocks over a partition. -/
theorem StoredOnce.of_cart {slots : Nat → Slot} {P : Cart} (hP : P.WF) {shape : List Nat}
    (hl : P.shape.length = shape.length)
    (hs : ∀ w ∈ P.members, slots w = .param (computeSubshape P.shape (P.coord w) shape))
    (hn : ∀ w s, slots w = .param s → w ∈ P.members) :
    StoredOnce slots shape fun w => (Layout.balanced P.shape shape).startAt (P.coord w) := by
  have hp := Layout.balanced_pshape hl
  have := StoredOnce.of_blocks (slots := slots) (L := Layout.balanced P.shape shape) (idx := P.coord)
    (B := fun w => w ∈ P.members)
    (fun w hw => (hs w hw).trans (congrArg Slot.param (Layout.balanced_shapeAt hl (coords_inBounds hP hw)).symm)) hn
    (fun w hw => by rw [hp]; exact coords_inBounds hP hw)
    (fun i hi => hP.exists_coord (by rwa [hp] at hi)) (fun v w hv hw e => coords_inj hP hv hw e)
  rwa [Layout.balanced_global hl hP.pos] at this

theorem StoredOnce.congr {slots : Nat → Slot} {shape : List Nat} {start start' : Nat → List Nat}
    (h : StoredOnce slots shape start) (he : ∀ w s, slots w = .param s → start w = start' w) :
    StoredOnce slots shape start' := by
  refine ⟨fun w s l e hl => he w s e ▸ h.inside w s l e hl, fun g hg => ?_⟩
  obtain ⟨p, ⟨s, e1, l1, e2⟩, hu⟩ := h.once g hg
  refine ⟨p, ⟨s, e1, l1, he _ _ e1 ▸ e2⟩, ?_⟩
  rintro q ⟨s', f1, f2, f3⟩
  exact hu q ⟨s', f1, f2, (he _ _ f1).symm ▸ f3⟩

theorem computeSubshape_ones {s k : List Nat} (hs : InBounds s (List.replicate k.length 1)) :
    computeSubshape (List.replicate k.length 1) s k = k ∧
      computeStartIndex (List.replicate k.length 1) s k = List.replicate k.length 0 := by
  induction k generalizing s with
  | nil =>
    cases s with
    | nil => exact ⟨rfl, rfl⟩
    | cons _ _ => exact hs.elim
  | cons n k ih =>
    cases s with
    | nil => exact hs.elim
    | cons i s =>
      obtain ⟨h1, h2⟩ := ih hs.2
      obtain rfl : i = 0 := Nat.lt_one_iff.1 hs.1
      constructor
      · show subsize 1 0 n :: computeSubshape (List.replicate k.length 1) s k = _
        rw [h1]
        simp [subsize, Nat.mod_one]
      · show startIdx 1 0 n :: computeStartIndex (List.replicate k.length 1) s k = _
        rw [h2]
        simp [startIdx, Nat.mod_one, List.replicate_succ]

/-- A line of blocks. -/
theorem StoredOnce.of_line {slots : Nat → Slot} {P : Cart} (hP : P.WF) {Po : Nat} {rest : List Nat}
    (hsh : P.shape = Po :: rest) {n : Nat}
    (hs : ∀ w ∈ P.members, (∀ i ∈ (P.coord w).drop 1, i = 0) → slots w = .param [subsize Po ((P.coord w).getD 0 0) n])
    (hn : ∀ w s, slots w = .param s → w ∈ P.members ∧ ∀ i ∈ (P.coord w).drop 1, i = 0) :
    StoredOnce slots [n] fun w => [startIdx Po ((P.coord w).getD 0 0) n] := by
  have hp : (Layout.balanced [Po] [n]).pshape = [Po] := Layout.balanced_pshape rfl
  have hPo : 0 < Po := hP.pos Po (by rw [hsh]; simp)
  have hr : ∀ m ∈ rest, 0 < m := fun m hm => hP.pos m (by rw [hsh]; simp [hm])
  have hc : ∀ w ∈ P.members, (P.coord w).getD 0 0 < Po ∧ ∃ o s, P.coord w = o :: s ∧ InBounds s rest := by
    intro w hw
    have hb : InBounds (P.coord w) P.shape := coords_inBounds hP hw
    rw [hsh] at hb
    cases hcw : P.coord w with
    | nil => rw [hcw] at hb; exact hb.elim
    | cons o s =>
      rw [hcw] at hb
      exact ⟨hb.1, o, s, rfl, hb.2⟩
  have := StoredOnce.of_blocks (slots := slots) (L := Layout.balanced [Po] [n]) (idx := fun w => [(P.coord w).getD 0 0])
    (B := fun w => w ∈ P.members ∧ ∀ i ∈ (P.coord w).drop 1, i = 0)
    (fun w hw => (hs w hw.1 hw.2).trans (congrArg Slot.param
      (Layout.balanced_shapeAt (Ps := [Po]) (ns := [n]) (idx := [(P.coord w).getD 0 0]) rfl ⟨(hc w hw.1).1, trivial⟩).symm))
    hn (fun w hw => by rw [hp]; exact ⟨(hc w hw.1).1, trivial⟩)
    (fun i hi => by
      rw [hp] at hi
      match i, hi with
      | [i], hi =>
        obtain ⟨w, hw, e⟩ := hP.exists_coord (i := i :: List.replicate rest.length 0) (by
          rw [hsh]
          exact ⟨hi.1, zeros_inBounds hr⟩)
        refine ⟨w, ⟨hw, fun a ha => ?_⟩, by rw [e]; rfl⟩
        rw [e] at ha
        exact List.eq_of_mem_replicate ha
      | [], hi => exact hi.elim
      | _ :: _ :: _, hi => exact hi.2.elim)
    (fun v w hv hw e => by
      obtain ⟨-, o, s, ev, bv⟩ := hc v hv.1
      obtain ⟨-, o', s', ew, bw⟩ := hc w hw.1
      refine coords_inj hP hv.1 hw.1 ?_
      show P.coord v = P.coord w
      have h1 := hv.2
      have h2 := hw.2
      rw [ev] at h1 e ⊢
      rw [ew] at h2 e ⊢
      have e0 : o = o' := by simpa using e
      have z : s = List.replicate s.length 0 := List.eq_replicate_of_mem h1
      have z' : s' = List.replicate s'.length 0 := List.eq_replicate_of_mem h2
      rw [e0, z, z', bv.length_eq, bw.length_eq])
  rw [Layout.balanced_global (Ps := [Po]) (ns := [n]) rfl (by simpa using hPo)] at this
  refine this.congr fun w s e => ?_
  exact (Layout.balanced_startAt (Ps := [Po]) (ns := [n]) (idx := [(P.coord w).getD 0 0]) rfl
    ⟨(hc w (hn w s e).1).1, trivial⟩).1

/-- Blocks of the weight of a convolution. -/
theorem StoredOnce.of_kernel {slots : Nat → Slot} {P : Cart} (hP : P.WF) {Po Pi : Nat} {k : List Nat}
    (hsh : P.shape = Po :: Pi :: List.replicate k.length 1) {Co Ci : Nat}
    (hs : ∀ w ∈ P.members, slots w =
      .param (subsize Po ((P.coord w).getD 0 0) Co :: subsize Pi ((P.coord w).getD 1 0) Ci :: k))
    (hn : ∀ w s, slots w = .param s → w ∈ P.members) :
    StoredOnce slots (Co :: Ci :: k) fun w =>
      startIdx Po ((P.coord w).getD 0 0) Co :: startIdx Pi ((P.coord w).getD 1 0) Ci :: List.replicate k.length 0 := by
  have hc : ∀ w ∈ P.members, ∃ o j s, P.coord w = o :: j :: s ∧ InBounds s (List.replicate k.length 1) := by
    intro w hw
    have hb : InBounds (P.coord w) P.shape := coords_inBounds hP hw
    rw [hsh] at hb
    obtain ⟨o, j, s, e, -, -, h3⟩ := inBounds_cons2 hb
    exact ⟨o, j, s, e, h3⟩
  have hl : P.shape.length = (Co :: Ci :: k).length := by rw [hsh]; simp
  have := StoredOnce.of_cart (slots := slots) hP (shape := Co :: Ci :: k) hl (fun w hw => by
    obtain ⟨o, j, s, e, h3⟩ := hc w hw
    rw [hs w hw, hsh, e]
    show _ = Slot.param (subsize Po o Co :: subsize Pi j Ci :: computeSubshape _ s k)
    rw [(computeSubshape_ones h3).1]
    rfl) hn
  refine this.congr fun w s' hw => ?_
  have hb : InBounds (P.coord w) P.shape := coords_inBounds hP (hn w s' hw)
  rw [(Layout.balanced_startAt hl hb).1, hsh]
  obtain ⟨o, j, s, e, h3⟩ := hc w (hn w s' hw)
  rw [e]
  show startIdx Po o Co :: startIdx Pi j Ci :: computeStartIndex _ s k = _
  rw [(computeSubshape_ones h3).2]
  rfl

/-! ## C70 -/

/-- C70, linear layer. -/
theorem C70_linear {R : Type} {L : LinearLayer R} {Po Pi : Nat} (h : LinearValid L Po Pi) :
    StoredOnce (fun w => (L.slots w).1) [L.outFeatures, L.inFeatures] (fun w =>
      [startIdx Po ((L.Pw.coord w).getD 0 0) L.outFeatures, startIdx Pi ((L.Pw.coord w).getD 1 0) L.inFeatures]) ∧
    (L.useBias = true → StoredOnce (fun w => (L.slots w).2) [L.outFeatures] fun w =>
      [startIdx Po ((L.Pw.coord w).getD 0 0) L.outFeatures]) ∧
    (L.useBias = false → ∀ w s, (L.slots w).2 ≠ .param s) := by
  have hm : ∀ w ∈ L.Pw.members, L.slots w = (.param [L.localOut w, L.localIn w],
      if L.localBias w then .param [L.localOut w] else .empty) := fun w hw => by
    rw [LinearLayer.slots, if_pos hw, torchLinearSlots]
  have hn : ∀ w, w ∉ L.Pw.members → L.slots w = (.empty, .empty) := fun w hw => by
    rw [LinearLayer.slots, if_neg hw]
  have hc : ∀ w ∈ L.Pw.members, ∃ o j, L.Pw.coord w = [o, j] := by
    intro w hw
    have hb : InBounds (L.Pw.coord w) L.Pw.shape := coords_inBounds h.wfw hw
    rw [h.shw] at hb
    obtain ⟨o, j, s, e, -, -, h3⟩ := inBounds_cons2 hb
    cases s with
    | nil => exact ⟨o, j, e⟩
    | cons _ _ => exact h3.elim
  have hb : ∀ w ∈ L.Pw.members, L.localBias w = if ∀ i ∈ (L.Pw.coord w).drop 1, i = 0 then L.useBias else false := by
    intro w hw
    obtain ⟨o, j, e⟩ := hc w hw
    rw [LinearLayer.localBias, Cart.index_eq hw, Option.getD_some, e]
    simp
  refine ⟨?_, fun hu => ?_, fun hu w s => ?_⟩
  · refine StoredOnce.of_kernel (k := []) h.wfw h.shw (fun w hw => ?_) (fun w s e => ?_)
    · rw [hm w hw, h.localIn hw, h.localOut hw]
    · by_contra hw
      rw [hn w hw] at e
      cases e
  · refine StoredOnce.of_line h.wfw h.shw (fun w hw hz => ?_) (fun w s e => ?_)
    · rw [hm w hw, hb w hw, if_pos hz, hu, if_pos rfl, h.localOut hw]
    · by_cases hw : w ∈ L.Pw.members
      · refine ⟨hw, ?_⟩
        by_contra hz
        rw [hm w hw, hb w hw, if_neg hz, if_neg (by simp)] at e
        cases e
      · rw [hn w hw] at e
        cases e
  · by_cases hw : w ∈ L.Pw.members
    · rw [hm w hw, hb w hw, hu]
      simp
    · rw [hn w hw]
      simp

/-- C70, feature-distributed convolution, with any number of groups. -/
theorem C70_feature {P : Cart} (hP : P.WF) (ci co groups : Nat) (k : List Nat) (bias : Bool) :
    StoredOnce (fun w => (featureSlots P ci co groups k bias w).1) (co :: ci / groups :: k) (fun _ =>
      List.replicate (k.length + 2) 0) ∧
    (bias = true → StoredOnce (fun w => (featureSlots P ci co groups k bias w).2) [co] fun _ => [0]) ∧
    (bias = false → ∀ w s, (featureSlots P ci co groups k bias w).2 ≠ .param s) := by
  obtain ⟨w0, h0, hw0⟩ := hP.head
  have hm : ∀ w, featureSlots P ci co groups k bias w = if w = w0 then torchConvSlots ci co groups k bias
      else if w ∈ P.members then (.zero, if bias then .zero else .empty) else (.empty, .empty) := by
    intro w
    have hr : (rootCart P).members = [w0] := by
      cases hm : P.members with
      | nil => rw [hm] at h0; cases h0
      | cons a l =>
        rw [hm] at h0
        simp only [List.head?_cons, Option.some.injEq] at h0
        simp [rootCart, hm, h0]
    rw [featureSlots, hr]
    by_cases hw : w = w0
    · subst hw
      rw [if_neg (by simpa using hw0), if_pos rfl]
      simp
    · rw [if_neg hw]
      by_cases hmem : w ∈ P.members
      · rw [if_neg (by simpa using hmem), if_pos hmem, if_neg ?_, if_neg (by simpa using hw)]
        intro h1
        obtain ⟨a, ha⟩ := List.length_eq_one_iff.1 h1
        rw [ha] at hmem hw0
        simp only [List.mem_singleton] at hmem hw0
        exact hw (hmem.trans hw0.symm)
      · rw [if_pos hmem, if_neg hmem]
  have key : ∀ (sh : List Nat) (slots : Nat → Slot), slots w0 = .param sh → (∀ w, w ≠ w0 → ∀ s, slots w ≠ .param s) →
      StoredOnce slots sh fun _ => List.replicate sh.length 0 := by
    intro sh slots e1 e2
    have hz : ∀ l : List Nat, shiftBy (List.replicate l.length 0) l = l := by
      intro l
      induction l with
      | nil => rfl
      | cons a l ih => simp [List.replicate_succ, shiftBy, ih]
    refine ⟨fun w s l e hl => ?_, fun g hg => ⟨(w0, g), ⟨sh, e1, hg, ?_⟩, ?_⟩⟩
    · by_cases hw : w = w0
      · subst hw
        rw [e1] at e
        cases e
        rw [← hl.length_eq, hz]
        exact hl
      · exact absurd e (e2 w hw s)
    · dsimp only
      rw [← hg.length_eq, hz]
    · rintro ⟨w, l⟩ ⟨s, f1, f2, f3⟩
      by_cases hw : w = w0
      · subst hw
        dsimp only at f1 f2 f3
        rw [e1] at f1
        cases f1
        rw [← f2.length_eq, hz] at f3
        rw [f3]
      · exact absurd f1 (e2 w hw s)
  refine ⟨key _ _ (by rw [hm, if_pos rfl]; rfl) fun w hw s => ?_, fun hb => key [co] _ (by rw [hm, if_pos rfl]; simp [torchConvSlots, hb]) fun w hw s => ?_,
    fun hb w s => ?_⟩
  · rw [hm, if_neg hw]
    split <;> simp [Slot.zero]
  · rw [hm, if_neg hw, hb]
    split <;> simp [Slot.zero]
  · rw [hm, hb]
    split
    · simp [torchConvSlots]
    · split <;> simp

section
variable {C : ChanConv} {Po Pi : Nat} {Sp : List Nat}

theorem ChanValid.fiber (h : ChanValid C Po Pi Sp) {w : Nat} (hw : w ∈ C.Pw.members) (h1 : C.Pw.members.length = 1) :
    subsize Po ((C.Pw.coord w).getD 0 0) C.Co = C.Co ∧ subsize Pi ((C.Pw.coord w).getD 1 0) C.Ci = C.Ci ∧
      ∀ i ∈ C.Pw.coord w, i = 0 := by
  have hones : ∀ n ∈ C.Pw.shape, n = 1 := fun n hn =>
    Nat.dvd_one.1 (show n ∣ 1 by rw [← h1, h.wfw.size]; exact List.dvd_prod hn)
  have hz : ∀ i ∈ C.Pw.coord w, i = 0 := by
    intro i hi
    have hb : InBounds (C.Pw.coord w) C.Pw.shape := coords_inBounds h.wfw hw
    obtain ⟨j, hj, rfl⟩ := List.mem_iff_getElem.1 hi
    have hj' : j < C.Pw.shape.length := by rw [← hb.length_eq]; exact hj
    have := inBounds_getD hb hj'
    rw [List.getD_eq_getElem _ _ hj, List.getD_eq_getElem _ _ hj', hones _ (List.getElem_mem _)] at this
    omega
  have e1 : Po = 1 := hones Po (by rw [h.shw]; simp)
  have e2 : Pi = 1 := hones Pi (by rw [h.shw]; simp)
  obtain ⟨o, j, s, ev, -⟩ := h.coordW hw
  have z1 : o = 0 := hz o (by rw [ev]; simp)
  have z2 : j = 0 := hz j (by rw [ev]; simp)
  refine ⟨?_, ?_, hz⟩
  · rw [ev, e1, z1]
    simp [subsize, Nat.mod_one]
  · rw [ev, e2, z2]
    simp [subsize, Nat.mod_one]

/-- C70, channel-distributed convolution without groups. -/
theorem C70_channel (h : ChanValid C Po Pi Sp) (h1 : ∀ n ∈ Sp, n = 1) (hSp : Sp.length = C.W.k.length) (hg : C.groups = 1) :
    (∀ w, (channelSlots C w).isSome) ∧
    StoredOnce (fun w => ((channelSlots C w).getD (.empty, .empty)).1) (C.Co :: C.Ci :: C.W.k) (fun w =>
      startIdx Po ((C.Pw.coord w).getD 0 0) C.Co :: startIdx Pi ((C.Pw.coord w).getD 1 0) C.Ci ::
        List.replicate C.W.k.length 0) ∧
    (C.useBias = true → StoredOnce (fun w => ((channelSlots C w).getD (.empty, .empty)).2) [C.Co] fun w =>
      [startIdx Po ((C.Pw.coord w).getD 0 0) C.Co]) ∧
    (C.useBias = false → ∀ w s, ((channelSlots C w).getD (.empty, .empty)).2 ≠ .param s) := by
  have hs1 : Sp = List.replicate C.W.k.length 1 := by rw [← hSp]; exact List.eq_replicate_of_mem h1
  have hsh : C.Pw.shape = Po :: Pi :: List.replicate C.W.k.length 1 := by rw [h.shw, hs1]
  have hout : ∀ w, w ∉ C.Pw.members → ∃ p, channelSlots C w = some p ∧ (∀ s, p.1 ≠ .param s) ∧ ∀ s, p.2 ≠ .param s := by
    intro w hw
    rw [channelSlots, h.cast true fun _ => h1]
    split
    · exact ⟨_, rfl, by simp, by simp⟩
    · refine ⟨(.zero, if C.useBias then .zero else .empty), rfl, by simp [Slot.zero], fun s => ?_⟩
      dsimp only
      split <;> simp [Slot.zero]
  have hmem : ∀ w ∈ C.Pw.members, ∃ p, channelSlots C w = some p ∧
      p.1 = .param (subsize Po ((C.Pw.coord w).getD 0 0) C.Co :: subsize Pi ((C.Pw.coord w).getD 1 0) C.Ci :: C.W.k) ∧
      (C.useBias = false → p.2 = .empty) ∧
      (C.useBias = true → p.2 = if ∀ i ∈ (C.Pw.coord w).drop 1, i = 0 then
        .param [subsize Po ((C.Pw.coord w).getD 0 0) C.Co] else .zero) := by
    intro w hw
    rw [channelSlots, if_neg (by simp [hw]), h.cast true fun _ => h1]
    dsimp only
    rw [if_pos hw]
    obtain ⟨o, j, s, ev, -, -, hsb⟩ := h.coordW hw
    have hsz : ∀ i ∈ s, i = 0 := by
      intro i hi
      obtain ⟨k, hk, rfl⟩ := List.mem_iff_getElem.1 hi
      have hk' : k < Sp.length := by rw [← hsb.length_eq]; exact hk
      have := inBounds_getD hsb hk'
      rw [List.getD_eq_getElem _ _ hk, List.getD_eq_getElem _ _ hk', h1 _ (List.getElem_mem _)] at this
      omega
    split
    · next hone =>
      obtain ⟨f1, f2, f3⟩ := h.fiber hw hone
      rw [f1, f2]
      refine ⟨_, rfl, by simp [torchConvSlots, hg], fun hu => by simp [torchConvSlots, hu], fun hu => ?_⟩
      rw [if_pos fun i hi => f3 i (List.mem_of_mem_drop hi)]
      simp [torchConvSlots, hu]
    · obtain ⟨c1, c2⟩ := h.localChannels hw
      rw [c1, c2]
      have hst : C.storesBias w = (j == 0 && C.useBias) := by
        rw [ChanConv.storesBias, Cart.index_eq hw, Option.getD_some, ev]
        rfl
      refine ⟨_, rfl, by simp [torchConvSlots, hg], fun hu => ?_, fun hu => ?_⟩
      · simp [hst, hu]
      · by_cases hj : j = 0
        · have hz : ∀ i ∈ (C.Pw.coord w).drop 1, i = 0 := by
            intro i hi
            rw [ev] at hi
            simp only [List.drop_succ_cons, List.drop_zero, List.mem_cons] at hi
            rcases hi with rfl | hi
            · exact hj
            · exact hsz i hi
          rw [if_pos hz]
          simp [torchConvSlots, hst, hu, hj]
        · have hz : ¬ ∀ i ∈ (C.Pw.coord w).drop 1, i = 0 := fun hall => hj (hall j (by rw [ev]; simp))
          rw [if_neg hz]
          simp [hst, hu, hj]
  have hcase : ∀ w s, (((channelSlots C w).getD (.empty, .empty)).1 = .param s → w ∈ C.Pw.members) ∧
      (((channelSlots C w).getD (.empty, .empty)).2 = .param s → w ∈ C.Pw.members) := by
    intro w s
    constructor <;> intro e <;> by_contra hw <;> obtain ⟨p, e1, e2, e3⟩ := hout w hw <;>
      rw [e1, Option.getD_some] at e
    · exact e2 s e
    · exact e3 s e
  refine ⟨fun w => ?_, StoredOnce.of_kernel h.wfw hsh (fun w hw => ?_) (fun w s e => (hcase w s).1 e),
    fun hu => StoredOnce.of_line h.wfw hsh (fun w hw hz => ?_) (fun w s e => ⟨(hcase w s).2 e, ?_⟩), fun hu w s e => ?_⟩
  · by_cases hw : w ∈ C.Pw.members
    · obtain ⟨p, e, -⟩ := hmem w hw
      simp [e]
    · obtain ⟨p, e, -⟩ := hout w hw
      simp [e]
  · obtain ⟨p, e, p1, -⟩ := hmem w hw
    rw [e]
    exact p1
  · obtain ⟨p, e, -, -, p2⟩ := hmem w hw
    rw [e, Option.getD_some, p2 hu, if_pos hz]
  · obtain ⟨p, e', -, -, p2⟩ := hmem w ((hcase w s).2 e)
    by_contra hz
    rw [e', Option.getD_some, p2 hu, if_neg hz] at e
    cases e
  · obtain ⟨p, e', -, p2, -⟩ := hmem w ((hcase w s).2 e)
    rw [e', Option.getD_some, p2 hu] at e
    cases e

/-- C70, general convolution without groups. -/
theorem C70_general (h : ChanValid C Po Pi Sp) (hSp : Sp.length = C.W.k.length) (hg : C.groups = 1) :
    (∀ w, (generalSlots C w).isSome) ∧
    StoredOnce (fun w => ((generalSlots C w).getD (.empty, .empty)).1) (C.Co :: C.Ci :: C.W.k) (fun w =>
      startIdx Po ((C.Pw.coord w).getD 0 0) C.Co :: startIdx Pi ((C.Pw.coord w).getD 1 0) C.Ci ::
        List.replicate C.W.k.length 0) ∧
    (C.useBias = true → StoredOnce (fun w => ((generalSlots C w).getD (.empty, .empty)).2) [C.Co] fun w =>
      [startIdx Po ((C.Pw.coord w).getD 0 0) C.Co]) ∧
    (C.useBias = false → ∀ w s, ((generalSlots C w).getD (.empty, .empty)).2 ≠ .param s) := by
  obtain ⟨Pwr, ew, wfr, shr, -, memw, cow⟩ := h.weightRoot
  obtain ⟨Pb, eb, -, -, -, memb, -⟩ := h.biasPart
  obtain ⟨Pbr, er, -, -, -, memr, -⟩ := h.biasRoot
  rw [hSp] at shr
  have hout : ∀ w, w ∉ C.Pw.members → ∃ p, generalSlots C w = some p ∧ (∀ s, p.1 ≠ .param s) ∧ ∀ s, p.2 ≠ .param s := by
    intro w hw
    rw [generalSlots, h.cast false (by simp)]
    split
    · exact ⟨_, rfl, by simp, by simp⟩
    · refine ⟨(.zero, if C.useBias then .zero else .empty), rfl, by simp [Slot.zero], fun s => ?_⟩
      dsimp only
      split <;> simp [Slot.zero]
  have hmem : ∀ w ∈ C.Pw.members, ∃ p, generalSlots C w = some p ∧
      p.1 = (if w ∈ Pwr.members then
        .param (subsize Po ((C.Pw.coord w).getD 0 0) C.Co :: subsize Pi ((C.Pw.coord w).getD 1 0) C.Ci :: C.W.k)
        else .zero) ∧
      (C.useBias = false → p.2 = .empty) ∧
      (C.useBias = true → p.2 = if ∀ i ∈ (C.Pw.coord w).drop 1, i = 0 then
        .param [subsize Po ((C.Pw.coord w).getD 0 0) C.Co] else .zero) := by
    intro w hw
    rw [generalSlots, if_neg (by simp [hw]), h.cast false (by simp)]
    dsimp only
    rw [if_pos hw]
    split
    · next hone =>
      obtain ⟨f1, f2, f3⟩ := h.fiber hw hone
      rw [f1, f2, if_pos ((memw w).2 ⟨hw, fun i hi => f3 i (List.mem_of_mem_drop hi)⟩)]
      refine ⟨_, rfl, by simp [torchConvSlots, hg], fun hu => by simp [torchConvSlots, hu], fun hu => ?_⟩
      rw [if_pos fun i hi => f3 i (List.mem_of_mem_drop hi)]
      simp [torchConvSlots, hu]
    · obtain ⟨c1, c2⟩ := h.localChannels hw
      rw [c1, c2, ew, eb, er]
      refine ⟨_, rfl, by simp [torchConvSlots, hg], fun hu => ?_, fun hu => ?_⟩
      · simp [hu]
      · by_cases hz : ∀ i ∈ (C.Pw.coord w).drop 1, i = 0
        · have hb : w ∈ Pb.members := by
            refine (memb w).2 ⟨hw, ?_⟩
            obtain ⟨o, j, s, ev, -⟩ := h.coordW hw
            rw [ev] at hz ⊢
            exact hz j (by simp)
          rw [if_pos hz]
          dsimp only
          rw [if_pos ⟨(memr w).2 ⟨hw, hz⟩, hu⟩]
          simp [torchConvSlots, hb, hu]
        · rw [if_neg hz]
          dsimp only
          rw [if_neg fun hh => hz ((memr w).1 hh.1).2, if_pos hu]
  have hcase : ∀ w s, (((generalSlots C w).getD (.empty, .empty)).1 = .param s → w ∈ C.Pw.members) ∧
      (((generalSlots C w).getD (.empty, .empty)).2 = .param s → w ∈ C.Pw.members) := by
    intro w s
    constructor <;> intro e <;> by_contra hw <;> obtain ⟨p, e1, e2, e3⟩ := hout w hw <;>
      rw [e1, Option.getD_some] at e
    · exact e2 s e
    · exact e3 s e
  refine ⟨fun w => ?_, ?_,
    fun hu => StoredOnce.of_line h.wfw h.shw (fun w hw hz => ?_) (fun w s e => ⟨(hcase w s).2 e, ?_⟩), fun hu w s e => ?_⟩
  · by_cases hw : w ∈ C.Pw.members
    · obtain ⟨p, e, -⟩ := hmem w hw
      simp [e]
    · obtain ⟨p, e, -⟩ := hout w hw
      simp [e]
  · have hr : ∀ w s, ((generalSlots C w).getD (.empty, .empty)).1 = .param s → w ∈ Pwr.members := by
      intro w s e
      obtain ⟨p, e', p1, -⟩ := hmem w ((hcase w s).1 e)
      by_contra hn
      rw [e', Option.getD_some, p1, if_neg hn] at e
      cases e
    refine (StoredOnce.of_kernel wfr shr (fun w hw => ?_) hr).congr fun w s e => by rw [cow w (hr w s e)]
    obtain ⟨p, e, p1, -⟩ := hmem w ((memw w).1 hw).1
    rw [e, Option.getD_some, p1, if_pos hw, cow w hw]
  · obtain ⟨p, e, -, -, p2⟩ := hmem w hw
    rw [e, Option.getD_some, p2 hu, if_pos hz]
  · obtain ⟨p, e', -, -, p2⟩ := hmem w ((hcase w s).2 e)
    by_contra hz
    rw [e', Option.getD_some, p2 hu, if_neg hz] at e
    cases e
  · obtain ⟨p, e', -, p2, -⟩ := hmem w ((hcase w s).2 e)
    rw [e', Option.getD_some, p2 hu] at e
    cases e

end

/-- C70, batch norm with affine parameters: scale and shift; without, there are none. -/
theorem C70_norm {R : Type} {P : Cart} (hP : P.WF) (h2 : 2 ≤ P.shape.length) (nf : Nat) (eps : R) (momentum : Option R)
    (track : Bool) :
    (∀ w ∈ P.members, ∀ affine, (normSlots P nf eps momentum affine track w).isSome) ∧
    StoredOnce (fun w => ((normSlots P nf eps momentum true track w).getD (.empty, .empty)).1)
      ([1, nf] ++ List.replicate (P.shape.length - 2) 1) (fun w =>
      [0, startIdx (P.shape.getD 1 0) ((P.coord w).getD 1 0) nf] ++ List.replicate (P.shape.length - 2) 0) ∧
    StoredOnce (fun w => ((normSlots P nf eps momentum true track w).getD (.empty, .empty)).2)
      ([1, nf] ++ List.replicate (P.shape.length - 2) 1) (fun w =>
      [0, startIdx (P.shape.getD 1 0) ((P.coord w).getD 1 0) nf] ++ List.replicate (P.shape.length - 2) 0) ∧
    ∀ w s, ((normSlots P nf eps momentum false track w).getD (.empty, .empty)).1 ≠ .param s ∧
      ((normSlots P nf eps momentum false track w).getD (.empty, .empty)).2 ≠ .param s := by
  obtain ⟨Q, eQ, hQ⟩ := sumPartition_spec hP h2
  obtain ⟨m, hm⟩ : ∃ m, P.shape.length = m + 2 := ⟨P.shape.length - 2, by omega⟩
  have hcs : ∀ c, channelShape P.shape.length c = 1 :: c :: List.replicate m 1 := fun c => by
    rw [hm]
    rfl
  have hsl : ∀ affine, ∀ w ∈ P.members, normSlots P nf eps momentum affine track w = some (if affine then
      if w ∈ Q.members then
        (.param (1 :: subsize (P.shape.getD 1 0) ((P.coord w).getD 1 0) nf :: List.replicate m 1),
          .param (1 :: subsize (P.shape.getD 1 0) ((P.coord w).getD 1 0) nf :: List.replicate m 1))
      else (.zero, .zero) else (.empty, .empty)) := by
    intro affine w hw
    have hlt : (P.coord w).getD 1 0 < P.shape.getD 1 0 := inBounds_getD (coords_inBounds hP hw) (by omega)
    have hb : (channelBlocks P nf).getD ((P.coord w).getD 1 0) 0 = subsize (P.shape.getD 1 0) ((P.coord w).getD 1 0) nf := by
      rw [channelBlocks, List.getD_eq_getElem _ _ (by simpa using hlt)]
      simp
    rw [normSlots, newBatchNorm, if_neg (by omega), localFeatures_eq hP h2 nf hw, eQ]
    simp only [Option.bind_some, Option.map_some, hcs, hb]
  have hno : ∀ affine w, w ∉ P.members → normSlots P nf eps momentum affine track w = none := by
    intro affine w hw
    have hi : P.index w = none := by
      rw [Cart.index, rankOf, if_neg hw]
      rfl
    rw [normSlots, newBatchNorm, if_neg (by omega), localFeatures, hi]
    rfl
  have hQs : Q.shape = 1 :: P.shape.getD 1 0 :: List.replicate m 1 := hQ.shape.trans (hcs _)
  have key : ∀ slots : Nat → Slot, (∀ w ∈ Q.members, slots w =
      .param (1 :: subsize (P.shape.getD 1 0) ((P.coord w).getD 1 0) nf :: List.replicate m 1)) →
      (∀ w s, slots w = .param s → w ∈ Q.members) →
      StoredOnce slots ([1, nf] ++ List.replicate (P.shape.length - 2) 1) fun w =>
        [0, startIdx (P.shape.getD 1 0) ((P.coord w).getD 1 0) nf] ++ List.replicate (P.shape.length - 2) 0 := by
    intro slots k1 k2
    rw [show P.shape.length - 2 = m by omega]
    have hl : Q.shape.length = (1 :: nf :: List.replicate m 1).length := by rw [hQs]; simp
    have hc : ∀ w ∈ Q.members, ∃ j s, Q.coord w = 0 :: j :: s ∧ P.coord w = 0 :: j :: s ∧
        InBounds s (List.replicate (List.replicate m 1).length 1) := by
      intro w hw
      have hb : InBounds (Q.coord w) Q.shape := coords_inBounds hQ.wf hw
      rw [hQs] at hb
      obtain ⟨o, j, s, e, h1, -, h3⟩ := inBounds_cons2 hb
      obtain rfl : o = 0 := by omega
      exact ⟨j, s, e, (hQ.coord w hw).symm.trans e, by rwa [List.length_replicate]⟩
    have := StoredOnce.of_cart (slots := slots) hQ.wf (shape := 1 :: nf :: List.replicate m 1) hl (fun w hw => by
      obtain ⟨j, s, e, e', h3⟩ := hc w hw
      have hs := (computeSubshape_ones h3).1
      rw [List.length_replicate] at hs
      rw [k1 w hw, hQs, e, e']
      show _ = Slot.param (subsize 1 0 1 :: subsize _ j nf :: computeSubshape (List.replicate m 1) s (List.replicate m 1))
      rw [hs]
      rfl) k2
    refine this.congr fun w s' hw => ?_
    obtain ⟨j, s, e, e', h3⟩ := hc w (k2 w s' hw)
    have hb : InBounds (Q.coord w) Q.shape := coords_inBounds hQ.wf (k2 w s' hw)
    rw [(Layout.balanced_startAt hl hb).1, hQs, e, e']
    have hs := (computeSubshape_ones h3).2
    rw [List.length_replicate] at hs
    show startIdx 1 0 1 :: startIdx _ j nf :: computeStartIndex (List.replicate m 1) s (List.replicate m 1) = _
    rw [hs]
    rfl
  refine ⟨fun w hw affine => by rw [hsl affine w hw]; rfl, key _ (fun w hw => ?_) (fun w s e => ?_),
    key _ (fun w hw => ?_) (fun w s e => ?_), fun w s => ?_⟩
  · rw [hsl true w (hQ.sub w hw), if_pos rfl, if_pos hw]
    rfl
  · by_cases hw : w ∈ P.members
    · by_contra hn
      rw [hsl true w hw, if_pos rfl, if_neg hn] at e
      cases e
    · rw [hno true w hw] at e
      cases e
  · rw [hsl true w (hQ.sub w hw), if_pos rfl, if_pos hw]
    rfl
  · by_cases hw : w ∈ P.members
    · by_contra hn
      rw [hsl true w hw, if_pos rfl, if_neg hn] at e
      cases e
    · rw [hno true w hw] at e
      cases e
  · by_cases hw : w ∈ P.members
    · rw [hsl false w hw]
      simp
    · rw [hno false w hw]
      simp

/-! ## C71 -/

/-- C71, linear layer.  The full statement, `L.fan w = fanIn [L.outFeatures, L.inFeatures]` for every worker, is false
(`C71_false`): missing is the case of partitioned input features.  The initial range is that of the sequential layer if the input features are not partitioned, and
larger on every worker otherwise. -/
theorem C71_linear_partial {R : Type} {L : LinearLayer R} {Po Pi : Nat} (h : LinearValid L Po Pi) {w : Nat}
    (hw : w ∈ L.Pw.members) :
    (Pi = 1 → L.fan w = fanIn [L.outFeatures, L.inFeatures]) ∧
    (1 < Pi → L.fan w < fanIn [L.outFeatures, L.inFeatures]) := by
  have e : L.fan w = subsize Pi ((L.Pw.coord w).getD 1 0) L.inFeatures := by
    rw [LinearLayer.fan, h.localIn hw]
    simp [fanIn]
  have e' : fanIn [L.outFeatures, L.inFeatures] = L.inFeatures := by simp [fanIn]
  rw [e, e']
  refine ⟨fun h1 => ?_, fun h1 => subsize_lt_whole h1 h.features⟩
  have hb : (L.Pw.coord w).getD 1 0 < L.Pw.shape.getD 1 0 := inBounds_getD (coords_inBounds h.wfw hw) (by rw [h.shw]; simp)
  rw [h.shw] at hb
  subst h1
  have hz : (L.Pw.coord w).getD 1 0 = 0 := Nat.lt_one_iff.1 hb
  rw [hz]
  simp [subsize, Nat.mod_one]

/-- C71, channel-distributed and general convolution without groups: the same, the full statement being
`C.fan w = fanIn (C.Co :: C.Ci :: C.W.k)`. -/
theorem C71_conv_partial {C : ChanConv} {Po Pi : Nat} {Sp : List Nat} (h : ChanValid C Po Pi Sp) (hg : C.groups = 1)
    (hk : ∀ n ∈ C.W.k, 0 < n) {w : Nat} (hw : w ∈ C.Pw.members) :
    (Pi = 1 → C.fan w = fanIn (C.Co :: C.Ci :: C.W.k)) ∧ (1 < Pi → C.fan w < fanIn (C.Co :: C.Ci :: C.W.k)) := by
  have hpos : 0 < C.W.k.prod := prod_pos_of_inBounds (a := List.replicate C.W.k.length 0) (zeros_inBounds hk)
  have e' : fanIn (C.Co :: C.Ci :: C.W.k) = C.Ci * C.W.k.prod := by simp [fanIn]
  have e : C.fan w = subsize Pi ((C.Pw.coord w).getD 1 0) C.Ci * C.W.k.prod := by
    rw [ChanConv.fan]
    split
    · next h1 =>
      rw [(h.fiber hw h1).2.1, hg]
      simp [fanIn]
    · rw [(h.localChannels hw).2, hg]
      simp [fanIn]
  rw [e, e']
  refine ⟨fun h1 => ?_, fun h1 => Nat.mul_lt_mul_of_pos_right (subsize_lt_whole h1 h.channels.1) hpos⟩
  have hb : (C.Pw.coord w).getD 1 0 < C.Pw.shape.getD 1 0 := inBounds_getD (coords_inBounds h.wfw hw) (by rw [h.shw]; simp)
  rw [h.shw] at hb
  subst h1
  have hz : (C.Pw.coord w).getD 1 0 = 0 := Nat.lt_one_iff.1 hb
  rw [hz]
  simp [subsize, Nat.mod_one]

/-- Four input features on two workers. -/
def twoL : LinearLayer Unit :=
  ⟨⟨[0, 1], [1, 2], some 0⟩, ⟨[1], [1, 1], some 0⟩, ⟨[1, 0], [1, 2], some 0⟩, false, false, 4, 3, true, fun _ _ => (),
    fun _ _ => ()⟩

theorem twoL_valid : LinearValid twoL 1 2 :=
  ⟨⟨by decide, by decide, by decide⟩, ⟨by decide, by decide, by decide⟩, ⟨by decide, by decide, by decide⟩,
    rfl, rfl, rfl, ⟨_, rfl, rfl, rfl⟩, by simp [twoL], by simp [twoL], by decide⟩

/-- C71 is false: with the input features on two workers the initial range is larger than that of the sequential layer. -/
theorem C71_false : ¬ ∀ (L : LinearLayer Unit) (Po Pi : Nat), LinearValid L Po Pi → ∀ w ∈ L.Pw.members,
    L.fan w = fanIn [L.outFeatures, L.inFeatures] := fun h =>
  absurd (h twoL 1 2 twoL_valid 0 (by decide)) (by decide)

/-! ## Worked cases -/

/-- Worker 1 stores the left half of the weight and the bias, worker 0 the right half. -/
example : (List.range 3).map twoL.slots =
    [(.param [3, 2], .empty), (.param [3, 2], .param [3]), (.empty, .empty)] := by decide

example : ((List.range 3).map fun w => (twoL.slots w).1.numel).sum = 12 :=
  C70_count (C70_linear twoL_valid).1 (by decide) fun w s h => by
    by_contra hw
    have : w ∉ twoL.Pw.members := fun h' => hw (by
      have : w = 1 ∨ w = 0 := by simpa [twoL] using h'
      rcases this with rfl | rfl <;> decide)
    rw [LinearLayer.slots, if_neg this] at h
    cases h

/-- Two output channels, two input channels, two halves of the feature dimension. -/
def eightC : ChanConv :=
  ⟨⟨[0, 1, 2, 3], [1, 2, 2], some 0⟩, ⟨[4, 5, 6, 7], [1, 2, 2], some 0⟩, ⟨[0, 1, 2, 3, 4, 5, 6, 7], [2, 2, 2], some 0⟩,
    ⟨[3], [1], [1], [1]⟩, 1, 4, 6, true⟩

theorem eightC_valid : ChanValid eightC 2 2 [2] :=
  ⟨⟨by decide, by decide, by decide⟩, ⟨by decide, by decide, by decide⟩, ⟨by decide, by decide, by decide⟩,
    rfl, rfl, rfl, ⟨_, rfl, rfl, rfl⟩, by decide⟩

example : (List.range 9).map (generalSlots eightC) =
    [some (.param [3, 2, 3], .param [3]), some (.zero, .zero), some (.param [3, 2, 3], .zero), some (.zero, .zero),
      some (.param [3, 2, 3], .param [3]), some (.zero, .zero), some (.param [3, 2, 3], .zero), some (.zero, .zero),
      some (.empty, .empty)] := by decide +kernel

example : ∃ w, w ∈ [0, 1, 2, 3, 4, 5, 6, 7] ∧ (generalSlots eightC w) = some (.param [3, 2, 3], .zero) :=
  ⟨2, by decide, by decide +kernel⟩

example : StoredOnce (fun w => ((generalSlots eightC w).getD (.empty, .empty)).2) [6] fun w =>
    [startIdx 2 ((eightC.Pw.coord w).getD 0 0) 6] := (C70_general eightC_valid rfl rfl).2.2.1 rfl

/-- A convolution over channels only. -/
def fourC : ChanConv :=
  ⟨⟨[0, 1], [1, 2, 1], some 0⟩, ⟨[2, 3], [1, 2, 1], some 0⟩, ⟨[0, 1, 2, 3], [2, 2, 1], some 0⟩, ⟨[3], [1], [1], [1]⟩, 1, 4, 6,
    true⟩

theorem fourC_valid : ChanValid fourC 2 2 [1] :=
  ⟨⟨by decide, by decide, by decide⟩, ⟨by decide, by decide, by decide⟩, ⟨by decide, by decide, by decide⟩,
    rfl, rfl, rfl, ⟨_, rfl, rfl, rfl⟩, by decide⟩

example : (List.range 4).map (channelSlots fourC) =
    [some (.param [3, 2, 3], .param [3]), some (.param [3, 2, 3], .zero), some (.param [3, 2, 3], .param [3]),
      some (.param [3, 2, 3], .zero)] := by decide +kernel

example : StoredOnce (fun w => ((channelSlots fourC w).getD (.empty, .empty)).1) [6, 4, 3] fun w =>
    [startIdx 2 ((fourC.Pw.coord w).getD 0 0) 6, startIdx 2 ((fourC.Pw.coord w).getD 1 0) 4, 0] :=
  (C70_channel fourC_valid (by decide) rfl rfl).2.1

example : fourC.fan 1 < fanIn [6, 4, 3] := (C71_conv_partial fourC_valid rfl (by decide) (by decide)).2 (by decide)

example : (List.range 3).map (featureSlots ⟨[2, 0], [1, 1, 2], some 0⟩ 4 6 2 [3] true) =
    [(.zero, .zero), (.empty, .empty), (.param [6, 2, 3], .param [6])] := by decide

/-- Five features over two workers, the rest of the partition over two. -/
example : (List.range 5).map (normSlots ⟨[0, 1, 2, 3], [2, 2], some 0⟩ 5 (0 : Int) none true true) =
    [some (.param [1, 3], .param [1, 3]), some (.param [1, 2], .param [1, 2]), some (.zero, .zero), some (.zero, .zero),
      none] := by decide +kernel

end Verif
