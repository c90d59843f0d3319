import Verif.Params.Props

/-!
# C70, C71: convolutions over partitioned channels with groups

PyTorch accepts the local layers if the number of groups divides the channels of every block.
-/

namespace Verif

/-- If the groups divide every block of channels, the blocks of a group are the blocks divided by the groups. -/
theorem subsize_groups {P n g : Nat} (hP : 0 < P) (hg : 0 < g) (hd : ∀ i < P, g ∣ subsize P i n) {i : Nat} (hi : i < P) :
    subsize P i (n / g) = subsize P i n / g ∧ (P ≤ n → P ≤ n / g) := by
  by_cases hr : n % P = 0
  · have h0 := hd i hi
    simp only [subsize, hr, Nat.not_lt_zero, if_false, Nat.add_zero] at h0 ⊢
    obtain ⟨t, ht⟩ := h0
    obtain ⟨q, rfl⟩ := Nat.dvd_of_mod_eq_zero hr
    rw [Nat.mul_div_cancel_left _ hP] at ht ⊢
    subst ht
    have e : P * (g * t) / g = P * t := by
      rw [show P * (g * t) = g * (P * t) by ring, Nat.mul_div_cancel_left _ hg]
    rw [e, Nat.mul_div_cancel_left _ hg, Nat.mul_div_cancel_left _ hP, Nat.mul_mod_right]
    refine ⟨by simp, fun hle => ?_⟩
    rcases Nat.eq_zero_or_pos t with rfl | ht
    · simp at hle; omega
    · exact Nat.le_mul_of_pos_right _ ht
  · have hlt := Nat.mod_lt n hP
    have a := hd 0 hP
    have b := hd (P - 1) (by omega)
    rw [subsize, if_pos (by omega)] at a
    rw [subsize, if_neg (by omega), Nat.add_zero] at b
    obtain rfl : g = 1 := Nat.dvd_one.1 ((Nat.dvd_add_right b).1 a)
    simp

/-- The layer without groups and with the input channels of one group. -/
def ChanConv.oneGroup (C : ChanConv) : ChanConv := { C with groups := 1, Ci := C.Ci / C.groups }

section
variable {C : ChanConv} {Po Pi : Nat} {Sp : List Nat}

theorem oneGroup_valid (h : ChanValid C Po Pi Sp) (hg : 0 < C.groups) (hd : ∀ i < Pi, C.groups ∣ subsize Pi i C.Ci) :
    ChanValid C.oneGroup Po Pi Sp :=
  ⟨h.wfx, h.wfy, h.wfw, h.shx, h.shy, h.shw, h.root,
    ⟨(subsize_groups h.pos.2.1 hg hd h.pos.2.1).2 h.channels.1, h.channels.2⟩⟩

theorem oneGroup_local (h : ChanValid C Po Pi Sp) (hg : 0 < C.groups) (hd : ∀ i < Pi, C.groups ∣ subsize Pi i C.Ci) {w : Nat}
    (hw : w ∈ C.Pw.members) : (C.oneGroup.localChannels w).getD 0 0 = (C.localChannels w).getD 0 0 ∧
      (C.oneGroup.localChannels w).getD 1 0 = (C.localChannels w).getD 1 0 / C.groups := by
  obtain ⟨a, b⟩ := (oneGroup_valid h hg hd).localChannels hw
  obtain ⟨c, d⟩ := h.localChannels hw
  obtain ⟨o, j, s, ev, -, hj, -⟩ := h.coordW hw
  refine ⟨a.trans c.symm, ?_⟩
  rw [b, d]
  refine (subsize_groups h.pos.2.1 hg hd ?_).1
  show (C.Pw.coord w).getD 1 0 < Pi
  rw [ev]
  exact hj

theorem oneGroup_slots (h : ChanValid C Po Pi Sp) (hg : 0 < C.groups) (hd : ∀ i < Pi, C.groups ∣ subsize Pi i C.Ci) (w : Nat) :
    channelSlots C w = channelSlots C.oneGroup w ∧ generalSlots C w = generalSlots C.oneGroup w ∧
      (w ∈ C.Pw.members → C.fan w = C.oneGroup.fan w) := by
  by_cases hw : w ∈ C.Pw.members
  · obtain ⟨e0, e1⟩ := oneGroup_local h hg hd hw
    refine ⟨?_, ?_, fun _ => ?_⟩
    · simp only [channelSlots, e0, e1, torchConvSlots]
      simp only [ChanConv.oneGroup, Nat.div_one, ChanConv.storesBias]
      rfl
    · simp only [generalSlots, e0, e1, torchConvSlots]
      simp only [ChanConv.oneGroup, Nat.div_one]
      rfl
    · simp only [ChanConv.fan, e0, e1]
      simp only [ChanConv.oneGroup, Nat.div_one]
  · refine ⟨?_, ?_, fun hh => absurd hh hw⟩
    · simp only [channelSlots, hw, if_false, ChanConv.oneGroup]
      rfl
    · simp only [generalSlots, hw, if_false, ChanConv.oneGroup]
      rfl

/-- C70, channel-distributed convolution with groups that divide the input channels of every block: the weight of the
sequential grouped layer is stored once, in the blocks that its input channels per group prescribe, and so is the bias. -/
theorem C70_channel_groups (h : ChanValid C Po Pi Sp) (h1 : ∀ n ∈ Sp, n = 1) (hSp : Sp.length = C.W.k.length)
    (hg : 0 < C.groups) (hd : ∀ i < Pi, C.groups ∣ subsize Pi i C.Ci) :
    (∀ w, (channelSlots C w).isSome) ∧
    StoredOnce (fun w => ((channelSlots C w).getD (.empty, .empty)).1) (C.Co :: C.Ci / C.groups :: C.W.k) (fun w =>
      startIdx Po ((C.Pw.coord w).getD 0 0) C.Co :: startIdx Pi ((C.Pw.coord w).getD 1 0) (C.Ci / C.groups) ::
        List.replicate C.W.k.length 0) ∧
    (C.useBias = true → StoredOnce (fun w => ((channelSlots C w).getD (.empty, .empty)).2) [C.Co] fun w =>
      [startIdx Po ((C.Pw.coord w).getD 0 0) C.Co]) ∧
    (C.useBias = false → ∀ w s, ((channelSlots C w).getD (.empty, .empty)).2 ≠ .param s) := by
  have e : channelSlots C = channelSlots C.oneGroup := funext fun w => (oneGroup_slots h hg hd w).1
  rw [e]
  exact C70_channel (oneGroup_valid h hg hd) h1 hSp rfl

/-- C70, general convolution with such groups. -/
theorem C70_general_groups (h : ChanValid C Po Pi Sp) (hSp : Sp.length = C.W.k.length)
    (hg : 0 < C.groups) (hd : ∀ i < Pi, C.groups ∣ subsize Pi i C.Ci) :
    (∀ w, (generalSlots C w).isSome) ∧
    StoredOnce (fun w => ((generalSlots C w).getD (.empty, .empty)).1) (C.Co :: C.Ci / C.groups :: C.W.k) (fun w =>
      startIdx Po ((C.Pw.coord w).getD 0 0) C.Co :: startIdx Pi ((C.Pw.coord w).getD 1 0) (C.Ci / C.groups) ::
        List.replicate C.W.k.length 0) ∧
    (C.useBias = true → StoredOnce (fun w => ((generalSlots C w).getD (.empty, .empty)).2) [C.Co] fun w =>
      [startIdx Po ((C.Pw.coord w).getD 0 0) C.Co]) ∧
    (C.useBias = false → ∀ w s, ((generalSlots C w).getD (.empty, .empty)).2 ≠ .param s) := by
  have e : generalSlots C = generalSlots C.oneGroup := funext fun w => (oneGroup_slots h hg hd w).2.1
  rw [e]
  exact C70_general (oneGroup_valid h hg hd) hSp rfl

/-- C71, channel-distributed and general convolution with such groups: the full statement being
`C.fan w = fanIn (C.Co :: C.Ci / C.groups :: C.W.k)`, it holds if the input channels are not partitioned, and the initial
range is larger than that of the sequential grouped layer on every worker otherwise. -/
theorem C71_groups_partial (h : ChanValid C Po Pi Sp) (hg : 0 < C.groups) (hd : ∀ i < Pi, C.groups ∣ subsize Pi i C.Ci)
    (hk : ∀ n ∈ C.W.k, 0 < n) {w : Nat} (hw : w ∈ C.Pw.members) :
    (Pi = 1 → C.fan w = fanIn (C.Co :: C.Ci / C.groups :: C.W.k)) ∧
      (1 < Pi → C.fan w < fanIn (C.Co :: C.Ci / C.groups :: C.W.k)) := by
  rw [(oneGroup_slots h hg hd w).2.2 hw]
  exact C71_conv_partial (oneGroup_valid h hg hd) rfl hk hw

end

/-- Eight input channels on two workers, two groups. -/
def groupC : ChanConv := { fourC with groups := 2, Ci := 8 }

theorem groupC_valid : ChanValid groupC 2 2 [1] :=
  ⟨⟨by decide, by decide, by decide⟩, ⟨by decide, by decide, by decide⟩, ⟨by decide, by decide, by decide⟩,
    rfl, rfl, rfl, ⟨_, rfl, rfl, rfl⟩, by decide⟩

example : StoredOnce (fun w => ((channelSlots groupC w).getD (.empty, .empty)).1) [6, 4, 3] fun w =>
    [startIdx 2 ((groupC.Pw.coord w).getD 0 0) 6, startIdx 2 ((groupC.Pw.coord w).getD 1 0) 4, 0] :=
  (C70_channel_groups groupC_valid (by decide) rfl (by decide) (by decide)).2.1

example : StoredOnce (fun w => ((generalSlots groupC w).getD (.empty, .empty)).1) [6, 4, 3] fun w =>
    [startIdx 2 ((groupC.Pw.coord w).getD 0 0) 6, startIdx 2 ((groupC.Pw.coord w).getD 1 0) 4, 0] :=
  (C70_general_groups groupC_valid rfl (by decide) (by decide)).2.1

example : (List.range 4).map (channelSlots groupC) =
    [some (.param [3, 2, 3], .param [3]), some (.param [3, 2, 3], .zero), some (.param [3, 2, 3], .param [3]),
      some (.param [3, 2, 3], .zero)] := by decide +kernel

example : groupC.fan 1 < fanIn [6, 4, 3] :=
  (C71_groups_partial groupC_valid (by decide) (by decide) (by decide) (by decide)).2 (by decide)

end Verif
