import Verif.Lemmas.Pass
import Verif.Props.WasiAbi
import Verif.Props.Machine
/- C48, C49: host calls. -/
namespace Verif.Props
open Verif.Spec Verif.Model Verif.Lemmas

/-- the table of roles says the same about the parameters as the types of the interface -/
theorem roles_lower (fn : WasiFn) {rs : List Role} (h : roles fn = some rs) : rs.flatMap Role.lower = fn.type.params := by
  cases fn <;> first | (cases h; rfl) | cases h

theorem toNat_setWidth16 {x : BitVec 32} (h : x.toNat < 2 ^ 16) : (x.setWidth 16).toNat = x.toNat := by
  rw [BitVec.toNat_setWidth, Nat.mod_eq_of_lt h]

theorem toNat_setWidth8 {x : BitVec 32} (h : x.toNat < 2 ^ 8) : (x.setWidth 8).toNat = x.toNat := by
  rw [BitVec.toNat_setWidth, Nat.mod_eq_of_lt h]

/-- functions whose guest request is passed on as it is -/
def PassedOn (fn : WasiFn) (ns : List Nat) : Prop :=
  fn ≠ .sockRecv ∧ fn ≠ .sockSend ∧ fn ≠ .procRaise ∧ (fn = .randomGet → ns.getD 1 0 ≠ 0)

theorem num_i32 {ps : List Val} {cs : List Cls} (h : ps.map (·.cls) = cs) (i : Nat) (hi : cs[i]? = some .i32) :
    (ps.map Val.num).getD i 0 < 2 ^ 32 := by
  subst h
  rw [List.getElem?_map] at hi
  cases hp : ps[i]? with
  | none => rw [hp] at hi; cases hi
  | some v =>
    rw [hp] at hi
    simp only [Option.map_some, Option.some.injEq] at hi
    simp only [List.getD, List.getElem?_map, hp, Option.map_some, Option.getD_some]
    exact num_lt32 hi

theorem fdWrite_answered {H : Native} (hH : Conforms H) {m : Mem} (hmem : m.data.length < 2 ^ 31) {w : H.W} {fd p n r : BitVec 32}
    (h : ∀ i ∈ List.range n.toNat, DescOk m.data p.toNat i) (hr : r.toNat + 4 ≤ m.data.length) :
    pFdWrite H m w fd p n r = .ok (answered H .fdWrite m w [.num fd.toNat,
      .rd ((List.range n.toNat).map fun i => bytesAt m.data (descPtr m.data p.toNat i) (descLen m.data p.toNat i)), .ret 4] [(r.toNat, 4)]) := by
  have hn : n.toNat * 8 < 2 ^ 31 := by rcases desc_count h with h0 | h0 <;> omega
  have hw : ∀ i ∈ List.range n.toNat, IovNoWrap m p.toNat i := by
    intro i hi
    have := h i hi
    refine ⟨by have := this.1; omega, ?_⟩
    rcases this.2 with h0 | h0
    · have h0 : iovLen m p.toNat i = 0 := h0
      have : iovPtr m p.toNat i < 2 ^ 32 := u32At_lt _ _ (by have := this.1; omega)
      omega
    · have h0 : iovPtr m p.toNat i + iovLen m p.toNat i ≤ m.data.length := h0
      omega
  have hall : ∀ i ∈ List.range n.toNat, IovOk m p.toNat i := h
  simp only [pFdWrite, fdWrite]
  rw [if_neg (by omega), gather_spec m p (by omega) _ _ hw, if_pos hall]
  simp only [List.nil_append, Res.bind_ok, iovecBytes_spec m p.toNat (by omega) _ hall]
  rw [show (fun i => bytesAt m.data (descPtr m.data p.toNat i) (descLen m.data p.toNat i)) = iovBytes m p.toNat from rfl]
  generalize (List.range n.toNat).map (iovBytes m p.toNat) = bs
  have hf := hH.fills .fdWrite [.num fd.toNat, .rd bs, .ret 4] w
  match ho : (H.call .fdWrite [.num fd.toNat, .rd bs, .ret 4] w).1.outs, hf with
  | [b], hf =>
    obtain ⟨_, hb, _⟩ := hf
    have hb := hb rfl
    simp only [writeHost, ho, List.getD_cons_zero, answered, put]
    by_cases hz : (H.call .fdWrite [.num fd.toNat, .rd bs, .ret 4] w).1.errno = 0
    · rw [decide_eq_true hz, if_pos rfl] at hb
      rw [if_pos hz]
      have hl := fromLE_lt b
      rw [hb] at hl
      have e : toLE 4 (BitVec.ofNat 32 (fromLE b)).toNat = b := by
        rw [ofNat32_toNat (by omega), ← hb, toLE_fromLE]
      simp only [localVar_self hb, Mem.storeU32, e, Mem.storeBytes, writeAt]
      rw [if_pos (by rw [hb]; exact hr)]
      rfl
    · rw [decide_eq_false hz, if_neg (by simp)] at hb
      have hb := List.length_eq_zero_iff.mp hb
      subst hb
      rw [if_neg hz]
      simp only [overwrite_nil, Res.pure_eq, Res.bind_ok, writeWorld]

theorem bufs_answered {H : Native} (hH : Conforms H) {m : Mem} (hmem : m.data.length < 2 ^ 31) {p n : BitVec 32}
    (h : ∀ i ∈ List.range n.toNat, DescOk m.data p.toNat i) :
    ¬ 2 ^ 31 ≤ n.toNat * 8 ∧ gatherRaw m.data p (List.range n.toNat) [] = .ok ((List.range n.toNat).map (nativeIov m p.toNat)) ∧
      ((List.range n.toNat).map (nativeIov m p.toNat)).map IoVec.cap = (List.range n.toNat).map (descLen m.data p.toNat) ∧
      Points m.data.length ((List.range n.toNat).map (nativeIov m p.toNat))
        ((List.range n.toNat).map fun i => (descPtr m.data p.toNat i, descLen m.data p.toNat i)) := by
  have hn : n.toNat * 8 < 2 ^ 31 := by rcases desc_count h with h0 | h0 <;> omega
  have hm : m.data.length < 2 ^ 32 := by omega
  exact ⟨by omega, by rw [gatherRaw_spec m p hm _ _ h, List.nil_append], native_caps m _ hm _ h, native_points m _ hm _ h⟩

theorem passArm_answered {H : Native} (hH : Conforms H) {argv : List (List Byte)} {fn : WasiFn} {ps : List Val} {m : Mem} {w : H.W}
    (hmem : m.data.length < 2 ^ 31) {rs : List Role} (hr : roles fn = some rs) (hcls : ps.map (·.cls) = fn.type.params)
    {ns : List Nat} (hns : ps.map Val.num = ns) (hfn : PassedOn fn ns) {na : List NArg} {rg : List (Nat × Nat)}
    (ha : Asks m.data rs ns na rg) : passArm H argv fn ps m w = .ok (answered H fn m w na rg) := by
  obtain ⟨hf1, hf2, hf3, hf4⟩ := hfn
  have hsz := ha.sizes
  cases fn <;> first | (cases hr; done) | skip
  all_goals cases hr
  case fdWrite =>
    cases ha with | num h ha => cases ha with | data h1 ha => cases ha with | ret h2 ha => cases ha with | nil =>
    obtain rfl := par32_eq hns 0 rfl (by simp only [List.getD_cons_succ, List.getD_cons_zero]; omega)
    obtain rfl := par32_eq hns 1 rfl (by have := num_i32 hcls 1 rfl; rw [hns] at this; exact this)
    obtain rfl := par32_eq hns 2 rfl (by have := num_i32 hcls 2 rfl; rw [hns] at this; exact this)
    obtain rfl := par32_eq hns 3 rfl (by simp only [List.getD_cons_succ, List.getD_cons_zero]; omega)
    exact fdWrite_answered hH hmem h1 h2
  case fdRead =>
    cases ha with | num h ha => cases ha with | bufs h1 ha => cases ha with | ret h2 ha => cases ha with | nil =>
    obtain rfl := par32_eq hns 0 rfl (by simp only [List.getD_cons_succ, List.getD_cons_zero]; omega)
    obtain rfl := par32_eq hns 1 rfl (by have := num_i32 hcls 1 rfl; rw [hns] at this; exact this)
    obtain rfl := par32_eq hns 2 rfl (by have := num_i32 hcls 2 rfl; rw [hns] at this; exact this)
    obtain rfl := par32_eq hns 3 rfl (by simp only [List.getD_cons_succ, List.getD_cons_zero]; omega)
    obtain ⟨e1, e2, e3, e4⟩ := bufs_answered hH hmem h1
    simp only [passArm, pFdRead]
    rw [if_neg e1, e2, Res.bind_ok, e3, nativeCallLocal_eq hH e4 (by simp [places, Function.comp_def]) h2]
    rfl
  case fdPread =>
    cases ha with | num h ha => cases ha with | bufs h1 ha => cases ha with | num h3 ha => cases ha with | ret h2 ha => cases ha with | nil =>
    obtain rfl := par32_eq hns 0 rfl (by simp only [List.getD_cons_succ, List.getD_cons_zero]; omega)
    obtain rfl := par32_eq hns 1 rfl (by have := num_i32 hcls 1 rfl; rw [hns] at this; exact this)
    obtain rfl := par32_eq hns 2 rfl (by have := num_i32 hcls 2 rfl; rw [hns] at this; exact this)
    obtain rfl := par64_eq hns 3 rfl h3
    obtain rfl := par32_eq hns 4 rfl (by simp only [List.getD_cons_succ, List.getD_cons_zero]; omega)
    obtain ⟨e1, e2, e3, e4⟩ := bufs_answered hH hmem h1
    simp only [passArm, pFdPread]
    rw [if_neg e1, e2, Res.bind_ok, e3, nativeCallLocal_eq hH e4 (by simp [places, Function.comp_def]) h2]
    rfl
  case fdPwrite =>
    cases ha with | num h ha => cases ha with | data h1 ha => cases ha with | num h3 ha => cases ha with | ret h2 ha => cases ha with | nil =>
    obtain rfl := par32_eq hns 0 rfl (by simp only [List.getD_cons_succ, List.getD_cons_zero]; omega)
    obtain rfl := par32_eq hns 1 rfl (by have := num_i32 hcls 1 rfl; rw [hns] at this; exact this)
    obtain rfl := par32_eq hns 2 rfl (by have := num_i32 hcls 2 rfl; rw [hns] at this; exact this)
    obtain rfl := par64_eq hns 3 rfl h3
    obtain rfl := par32_eq hns 4 rfl (by simp only [List.getD_cons_succ, List.getD_cons_zero]; omega)
    obtain ⟨e1, e2, e3, e4⟩ := bufs_answered hH hmem h1
    simp only [passArm, pFdPwrite]
    rw [if_neg e1, e2, Res.bind_ok, iovecBytes_spec m _ (by omega) _ h1, Res.bind_ok, nativeCallLocal_eq hH .nil rfl h2]
    rfl
  case randomGet =>
    cases ha with | buf h ha => cases ha with | nil =>
    obtain rfl := par32_eq hns 0 rfl (by simp only [List.getD_cons_succ, List.getD_cons_zero]; omega)
    have h1 := hf4 rfl
    simp only [List.getD_cons_succ, List.getD_cons_zero] at h1
    obtain rfl := par32_eq hns 1 rfl (by simp only [List.getD_cons_succ, List.getD_cons_zero]; omega)
    simp only [passArm, pRandomGet]
    rw [if_neg (by intro hh; rw [hh] at h1; exact h1 rfl)]
    exact nativeCall_eq hH (.buf _ _ _ h .nil) rfl
  case fdPrestatDirName =>
    cases ha with | num h0 ha => cases ha with | buf h ha => cases ha with | nil =>
    obtain rfl := par32_eq hns 0 rfl (by simp only [List.getD_cons_succ, List.getD_cons_zero]; omega)
    obtain rfl := par32_eq hns 1 rfl (by simp only [List.getD_cons_succ, List.getD_cons_zero]; omega)
    obtain rfl := par32_eq hns 2 rfl (by simp only [List.getD_cons_succ, List.getD_cons_zero]; omega)
    exact nativeCall_eq hH (.buf _ _ _ h .nil) rfl
  case clockTimeGet =>
    cases ha with | num h0 ha => cases ha with | num h1 ha => cases ha with | ret h2 ha => cases ha with | nil =>
    obtain rfl := par32_eq hns 0 rfl (by simp only [List.getD_cons_succ, List.getD_cons_zero]; omega)
    obtain rfl := par64_eq hns 1 rfl h1
    obtain rfl := par32_eq hns 2 rfl (by simp only [List.getD_cons_succ, List.getD_cons_zero]; omega)
    exact nativeCallLocal_eq hH .nil rfl h2
  case clockResGet =>
    cases ha with | num h0 ha => cases ha with | ret h2 ha => cases ha with | nil =>
    obtain rfl := par32_eq hns 0 rfl (by simp only [List.getD_cons_succ, List.getD_cons_zero]; omega)
    obtain rfl := par32_eq hns 1 rfl (by simp only [List.getD_cons_succ, List.getD_cons_zero]; omega)
    exact nativeCallLocal_eq hH .nil rfl h2
  case fdPrestatGet | fdFdstatGet | fdTell | fdFilestatGet =>
    cases ha with | num h0 ha => cases ha with | ret h2 ha => cases ha with | nil =>
    obtain rfl := par32_eq hns 0 rfl (by simp only [List.getD_cons_succ, List.getD_cons_zero]; omega)
    obtain rfl := par32_eq hns 1 rfl (by simp only [List.getD_cons_succ, List.getD_cons_zero]; omega)
    exact nativeCall_eq hH (.buf _ _ _ h2 .nil) rfl
  case schedYield =>
    cases ha with | nil =>
    exact nativeCall_eq hH .nil rfl
  case fdClose | fdSync | fdDatasync =>
    cases ha with | num h0 ha => cases ha with | nil =>
    obtain rfl := par32_eq hns 0 rfl (by simp only [List.getD_cons_succ, List.getD_cons_zero]; omega)
    exact nativeCall_eq hH .nil rfl
  case pathOpen =>
    cases ha with | num h0 ha => cases ha with | num h1 ha => cases ha with | path h2 h2' ha => cases ha with | num h3 ha =>
    cases ha with | num h4 ha => cases ha with | num h5 ha => cases ha with | num h6 ha => cases ha with | ret h7 ha => cases ha with | nil =>
    obtain rfl := par32_eq hns 0 rfl (by simp only [List.getD_cons_succ, List.getD_cons_zero]; omega)
    obtain rfl := par32_eq hns 1 rfl (by simp only [List.getD_cons_succ, List.getD_cons_zero]; omega)
    obtain rfl := par32_eq hns 2 rfl (by simp only [List.getD_cons_succ, List.getD_cons_zero]; omega)
    obtain rfl := par32_eq hns 3 rfl (by simp only [List.getD_cons_succ, List.getD_cons_zero]; omega)
    obtain rfl := par32_eq hns 4 rfl (by simp only [List.getD_cons_succ, List.getD_cons_zero]; omega)
    obtain rfl := par64_eq hns 5 rfl h4
    obtain rfl := par64_eq hns 6 rfl h5
    obtain rfl := par32_eq hns 7 rfl (by simp only [List.getD_cons_succ, List.getD_cons_zero]; omega)
    obtain rfl := par32_eq hns 8 rfl (by simp only [List.getD_cons_succ, List.getD_cons_zero]; omega)
    simp only [passArm, pPathOpen]
    rw [pathArg_eq h2 h2', Res.bind_ok, toNat_setWidth16 h3, toNat_setWidth16 h6]
    exact nativeCall_eq hH (.buf _ _ _ h7 .nil) rfl
  case fdSeek =>
    cases ha with | num h0 ha => cases ha with | num h1 ha => cases ha with | num h2 ha => cases ha with | ret h3 ha => cases ha with | nil =>
    obtain rfl := par32_eq hns 0 rfl (by simp only [List.getD_cons_succ, List.getD_cons_zero]; omega)
    obtain rfl := par64_eq hns 1 rfl h1
    obtain rfl := par32_eq hns 2 rfl (by simp only [List.getD_cons_succ, List.getD_cons_zero]; omega)
    obtain rfl := par32_eq hns 3 rfl (by simp only [List.getD_cons_succ, List.getD_cons_zero]; omega)
    exact nativeCall_eq hH (.buf _ _ _ h3 .nil) rfl
  case fdReaddir =>
    cases ha with | num h0 ha => cases ha with | buf h1 ha => cases ha with | num h2 ha => cases ha with | ret h3 ha => cases ha with | nil =>
    obtain rfl := par32_eq hns 0 rfl (by simp only [List.getD_cons_succ, List.getD_cons_zero]; omega)
    obtain rfl := par32_eq hns 1 rfl (by simp only [List.getD_cons_succ, List.getD_cons_zero]; omega)
    obtain rfl := par32_eq hns 2 rfl (by simp only [List.getD_cons_succ, List.getD_cons_zero]; omega)
    obtain rfl := par64_eq hns 3 rfl h2
    obtain rfl := par32_eq hns 4 rfl (by simp only [List.getD_cons_succ, List.getD_cons_zero]; omega)
    exact nativeCall_eq hH (.buf _ _ _ h1 (.buf _ _ _ h3 .nil)) rfl
  case fdFdstatSetFlags | fdRenumber | sockShutdown =>
    cases ha with | num h0 ha => cases ha with | num h1 ha => cases ha with | nil =>
    obtain rfl := par32_eq hns 0 rfl (by simp only [List.getD_cons_succ, List.getD_cons_zero]; omega)
    obtain rfl := par32_eq hns 1 rfl (by simp only [List.getD_cons_succ, List.getD_cons_zero]; omega)
    exact nativeCall_eq hH .nil rfl
  case fdFilestatSetSize =>
    cases ha with | num h0 ha => cases ha with | num h1 ha => cases ha with | nil =>
    obtain rfl := par32_eq hns 0 rfl (by simp only [List.getD_cons_succ, List.getD_cons_zero]; omega)
    obtain rfl := par64_eq hns 1 rfl h1
    exact nativeCall_eq hH .nil rfl
  case pathCreateDirectory | pathRemoveDirectory | pathUnlinkFile =>
    cases ha with | num h0 ha => cases ha with | path h1 h1' ha => cases ha with | nil =>
    obtain rfl := par32_eq hns 0 rfl (by simp only [List.getD_cons_succ, List.getD_cons_zero]; omega)
    obtain rfl := par32_eq hns 1 rfl (by simp only [List.getD_cons_succ, List.getD_cons_zero]; omega)
    obtain rfl := par32_eq hns 2 rfl (by simp only [List.getD_cons_succ, List.getD_cons_zero]; omega)
    simp only [passArm, pPath]
    rw [pathArg_eq h1 h1', Res.bind_ok]
    exact nativeCall_eq hH .nil rfl
  case pathFilestatGet =>
    cases ha with | num h0 ha => cases ha with | num h1 ha => cases ha with | path h2 h2' ha => cases ha with | ret h3 ha => cases ha with | nil =>
    obtain rfl := par32_eq hns 0 rfl (by simp only [List.getD_cons_succ, List.getD_cons_zero]; omega)
    obtain rfl := par32_eq hns 1 rfl (by simp only [List.getD_cons_succ, List.getD_cons_zero]; omega)
    obtain rfl := par32_eq hns 2 rfl (by simp only [List.getD_cons_succ, List.getD_cons_zero]; omega)
    obtain rfl := par32_eq hns 3 rfl (by simp only [List.getD_cons_succ, List.getD_cons_zero]; omega)
    obtain rfl := par32_eq hns 4 rfl (by simp only [List.getD_cons_succ, List.getD_cons_zero]; omega)
    simp only [passArm, pPathFilestatGet]
    rw [pathArg_eq h2 h2', Res.bind_ok]
    exact nativeCall_eq hH (.buf _ _ _ h3 .nil) rfl
  case pathFilestatSetTimes =>
    cases ha with | num h0 ha => cases ha with | num h1 ha => cases ha with | path h2 h2' ha => cases ha with | num h3 ha =>
    cases ha with | num h4 ha => cases ha with | num h5 ha => cases ha with | nil =>
    obtain rfl := par32_eq hns 0 rfl (by simp only [List.getD_cons_succ, List.getD_cons_zero]; omega)
    obtain rfl := par32_eq hns 1 rfl (by simp only [List.getD_cons_succ, List.getD_cons_zero]; omega)
    obtain rfl := par32_eq hns 2 rfl (by simp only [List.getD_cons_succ, List.getD_cons_zero]; omega)
    obtain rfl := par32_eq hns 3 rfl (by simp only [List.getD_cons_succ, List.getD_cons_zero]; omega)
    obtain rfl := par64_eq hns 4 rfl h3
    obtain rfl := par64_eq hns 5 rfl h4
    obtain rfl := par32_eq hns 6 rfl (by simp only [List.getD_cons_succ, List.getD_cons_zero]; omega)
    simp only [passArm, pPathFilestatSetTimes]
    rw [pathArg_eq h2 h2', Res.bind_ok]
    exact nativeCall_eq hH .nil rfl
  case pathReadlink =>
    cases ha with | num h0 ha => cases ha with | path h1 h1' ha => cases ha with | buf h2 ha => cases ha with | ret h3 ha => cases ha with | nil =>
    obtain rfl := par32_eq hns 0 rfl (by simp only [List.getD_cons_succ, List.getD_cons_zero]; omega)
    obtain rfl := par32_eq hns 1 rfl (by simp only [List.getD_cons_succ, List.getD_cons_zero]; omega)
    obtain rfl := par32_eq hns 2 rfl (by simp only [List.getD_cons_succ, List.getD_cons_zero]; omega)
    obtain rfl := par32_eq hns 3 rfl (by simp only [List.getD_cons_succ, List.getD_cons_zero]; omega)
    obtain rfl := par32_eq hns 4 rfl (by simp only [List.getD_cons_succ, List.getD_cons_zero]; omega)
    obtain rfl := par32_eq hns 5 rfl (by simp only [List.getD_cons_succ, List.getD_cons_zero]; omega)
    simp only [passArm, pPathReadlink]
    rw [pathArg_eq h1 h1', Res.bind_ok]
    exact nativeCall_eq hH (.buf _ _ _ h2 (.buf _ _ _ h3 .nil)) rfl
  case pollOneoff =>
    cases ha with | poll h0 h1 ha => cases ha with | ret h2 ha => cases ha with | nil =>
    obtain rfl := par32_eq hns 0 rfl (by simp only [List.getD_cons_succ, List.getD_cons_zero]; omega)
    obtain rfl := par32_eq hns 1 rfl (by simp only [List.getD_cons_succ, List.getD_cons_zero]; omega)
    obtain rfl := par32_eq hns 2 rfl (by simp only [List.getD_cons_succ, List.getD_cons_zero]; omega)
    obtain rfl := par32_eq hns 3 rfl (by simp only [List.getD_cons_succ, List.getD_cons_zero]; omega)
    simp only [passArm, pPollOneoff, readAt]
    rw [if_pos h0, Res.bind_ok]
    exact nativeCall_eq hH (.buf _ _ _ h1 (.buf _ _ _ h2 .nil)) rfl
  case procRaise => exact absurd rfl hf3
  case fdAdvise =>
    cases ha with | num h0 ha => cases ha with | num h1 ha => cases ha with | num h2 ha => cases ha with | num h3 ha => cases ha with | nil =>
    obtain rfl := par32_eq hns 0 rfl (by simp only [List.getD_cons_succ, List.getD_cons_zero]; omega)
    obtain rfl := par64_eq hns 1 rfl h1
    obtain rfl := par64_eq hns 2 rfl h2
    obtain rfl := par32_eq hns 3 rfl (by simp only [List.getD_cons_succ, List.getD_cons_zero]; omega)
    simp only [passArm, pNums]
    rw [toNat_setWidth8 h3]
    exact nativeCall_eq hH .nil rfl
  case fdAllocate | fdFdstatSetRights =>
    cases ha with | num h0 ha => cases ha with | num h1 ha => cases ha with | num h2 ha => cases ha with | nil =>
    obtain rfl := par32_eq hns 0 rfl (by simp only [List.getD_cons_succ, List.getD_cons_zero]; omega)
    obtain rfl := par64_eq hns 1 rfl h1
    obtain rfl := par64_eq hns 2 rfl h2
    exact nativeCall_eq hH .nil rfl
  case fdFilestatSetTimes =>
    cases ha with | num h0 ha => cases ha with | num h1 ha => cases ha with | num h2 ha => cases ha with | num h3 ha => cases ha with | nil =>
    obtain rfl := par32_eq hns 0 rfl (by simp only [List.getD_cons_succ, List.getD_cons_zero]; omega)
    obtain rfl := par64_eq hns 1 rfl h1
    obtain rfl := par64_eq hns 2 rfl h2
    obtain rfl := par32_eq hns 3 rfl (by simp only [List.getD_cons_succ, List.getD_cons_zero]; omega)
    exact nativeCall_eq hH .nil rfl
  case pathLink =>
    cases ha with | num h0 ha => cases ha with | num h1 ha => cases ha with | path h2 h2' ha => cases ha with | num h3 ha =>
    cases ha with | path h4 h4' ha => cases ha with | nil =>
    obtain rfl := par32_eq hns 0 rfl (by simp only [List.getD_cons_succ, List.getD_cons_zero]; omega)
    obtain rfl := par32_eq hns 1 rfl (by simp only [List.getD_cons_succ, List.getD_cons_zero]; omega)
    obtain rfl := par32_eq hns 2 rfl (by simp only [List.getD_cons_succ, List.getD_cons_zero]; omega)
    obtain rfl := par32_eq hns 3 rfl (by simp only [List.getD_cons_succ, List.getD_cons_zero]; omega)
    obtain rfl := par32_eq hns 4 rfl (by simp only [List.getD_cons_succ, List.getD_cons_zero]; omega)
    obtain rfl := par32_eq hns 5 rfl (by simp only [List.getD_cons_succ, List.getD_cons_zero]; omega)
    obtain rfl := par32_eq hns 6 rfl (by simp only [List.getD_cons_succ, List.getD_cons_zero]; omega)
    simp only [passArm, pPathLink]
    rw [pathArg_eq h2 h2', Res.bind_ok, pathArg_eq h4 h4', Res.bind_ok]
    exact nativeCall_eq hH .nil rfl
  case pathRename =>
    cases ha with | num h0 ha => cases ha with | path h2 h2' ha => cases ha with | num h3 ha =>
    cases ha with | path h4 h4' ha => cases ha with | nil =>
    obtain rfl := par32_eq hns 0 rfl (by simp only [List.getD_cons_succ, List.getD_cons_zero]; omega)
    obtain rfl := par32_eq hns 1 rfl (by simp only [List.getD_cons_succ, List.getD_cons_zero]; omega)
    obtain rfl := par32_eq hns 2 rfl (by simp only [List.getD_cons_succ, List.getD_cons_zero]; omega)
    obtain rfl := par32_eq hns 3 rfl (by simp only [List.getD_cons_succ, List.getD_cons_zero]; omega)
    obtain rfl := par32_eq hns 4 rfl (by simp only [List.getD_cons_succ, List.getD_cons_zero]; omega)
    obtain rfl := par32_eq hns 5 rfl (by simp only [List.getD_cons_succ, List.getD_cons_zero]; omega)
    simp only [passArm, pPathRename]
    rw [pathArg_eq h2 h2', Res.bind_ok, pathArg_eq h4 h4', Res.bind_ok]
    exact nativeCall_eq hH .nil rfl
  case pathSymlink =>
    cases ha with | path h2 h2' ha => cases ha with | num h3 ha => cases ha with | path h4 h4' ha => cases ha with | nil =>
    obtain rfl := par32_eq hns 0 rfl (by simp only [List.getD_cons_succ, List.getD_cons_zero]; omega)
    obtain rfl := par32_eq hns 1 rfl (by simp only [List.getD_cons_succ, List.getD_cons_zero]; omega)
    obtain rfl := par32_eq hns 2 rfl (by simp only [List.getD_cons_succ, List.getD_cons_zero]; omega)
    obtain rfl := par32_eq hns 3 rfl (by simp only [List.getD_cons_succ, List.getD_cons_zero]; omega)
    obtain rfl := par32_eq hns 4 rfl (by simp only [List.getD_cons_succ, List.getD_cons_zero]; omega)
    simp only [passArm, pPathSymlink]
    rw [pathArg_eq h2 h2', Res.bind_ok, pathArg_eq h4 h4', Res.bind_ok]
    exact nativeCall_eq hH .nil rfl
  case sockAccept =>
    cases ha with | num h0 ha => cases ha with | num h1 ha => cases ha with | ret h2 ha => cases ha with | nil =>
    obtain rfl := par32_eq hns 0 rfl (by simp only [List.getD_cons_succ, List.getD_cons_zero]; omega)
    obtain rfl := par32_eq hns 1 rfl (by simp only [List.getD_cons_succ, List.getD_cons_zero]; omega)
    obtain rfl := par32_eq hns 2 rfl (by simp only [List.getD_cons_succ, List.getD_cons_zero]; omega)
    exact nativeCall_eq hH (.buf _ _ _ h2 .nil) rfl
  case sockRecv => exact absurd rfl hf1
  case sockSend => exact absurd rfl hf2

theorem passCall_arm {H : Native} {argv : List (List Byte)} {fn : WasiFn} {ps : List Val} {m : Mem} {w : H.W}
    (hcls : ps.map (·.cls) = fn.type.params) (hfn : fn ≠ .procRaise) : passCall H argv fn ps m w = passArm H argv fn ps m w := by
  have hw := (wasi_dispatch_matches_partial fn).resolve_right hfn
  simp only [passCall, hw, hcls, if_true]

theorem put_outside {d : List Byte} {k : Nat} : ∀ {rg : List (Nat × Nat)} {pl : List (Nat × Bool)} {outs : List (List Byte)} {ok : Bool}
    {d' : List Byte}, d'.length = d.length → d'[k]? = d[k]? → Fills ok pl outs → pl.map (·.1) = rg.map (·.2) →
    (∀ r ∈ rg, r.2 = 0 ∨ r.1 + r.2 ≤ d.length) → (∀ r ∈ rg, k < r.1 ∨ r.1 + r.2 ≤ k) → (put d' rg outs)[k]? = d[k]?
  | [], _, _, _, _, _, he, _, _, _, _ => by simpa [put] using he
  | r :: rg, (c, t) :: pl, b :: bs, ok, d', hl, he, ⟨h1, h2, h3⟩, hp, hin, hk => by
    simp only [List.map_cons, List.cons.injEq] at hp
    obtain ⟨hp1, hp2⟩ := hp
    simp only [put]
    rcases Nat.eq_zero_or_pos b.length with h0 | h0
    · have hb := List.length_eq_zero_iff.mp h0
      subst hb
      rw [overwrite_nil]
      exact put_outside hl he h3 hp2 (fun r h => hin r (List.mem_cons_of_mem _ h)) (fun r h => hk r (List.mem_cons_of_mem _ h))
    · have hr := hin r (List.mem_cons_self ..)
      have hw : r.1 + b.length ≤ d'.length := by omega
      refine put_outside ((overwrite_length hw).trans hl) ?_ h3 hp2 (fun r h => hin r (List.mem_cons_of_mem _ h))
        (fun r h => hk r (List.mem_cons_of_mem _ h))
      have hk' := hk r (List.mem_cons_self ..)
      rw [overwrite_getElem? hw, if_neg (by omega), he]
  | _ :: _, [], _, _, _, _, _, _, hp, _, _ => by simp at hp

theorem Asks.inside {d : List Byte} {rs : List Role} {ns : List Nat} {na : List NArg} {rg : List (Nat × Nat)} (h : Asks d rs ns na rg) :
    ∀ r ∈ rg, r.2 = 0 ∨ r.1 + r.2 ≤ d.length := by
  induction h with
  | nil => simp
  | num _ _ ih => exact ih
  | path _ _ _ ih => exact ih
  | data _ _ ih => exact ih
  | bufs h _ ih =>
    intro r hr
    rw [List.mem_append, List.mem_map] at hr
    rcases hr with ⟨i, hi, rfl⟩ | hr
    · exact (h i hi).2
    · exact ih r hr
  | buf h _ ih =>
    intro r hr
    rcases List.mem_cons.mp hr with rfl | hr
    · exact .inr h
    · exact ih r hr
  | poll _ h _ ih =>
    intro r hr
    rcases List.mem_cons.mp hr with rfl | hr
    · exact .inr h
    · exact ih r hr
  | ret h _ ih =>
    intro r hr
    rcases List.mem_cons.mp hr with rfl | hr
    · exact .inr h
    · exact ih r hr

/-- **C48** for well-formed requests, all functions but `sock_recv`, `sock_send` and `proc_raise` (for which it is false, see
`sock_recv_violated`, `sock_send_violated`, `proc_raise_violated`) and for `random_get` of at least one byte (see `random_get_empty`).
The host is called once, with exactly the numbers, strings and buffer contents the guest named; its error number is the result of
the call; guest memory afterwards is what it was, with the bytes the host wrote in the places the guest named and nowhere else.
Missing from the full claim: a request that is not well-formed should be answered with an error (`fault_violated`,
`path_with_nul_violated`).  A memory of 2 GiB or more cannot be allocated by the interpreter (32-bit `Vec`). -/
theorem wasi_call_partial {H : Native} (hH : Conforms H) (argv : List (List Byte)) {fn : WasiFn} {ps : List Val} {m : Mem} (w : H.W)
    (hmem : m.data.length < 2 ^ 31) {rs : List Role} (hr : roles fn = some rs) (hcls : ps.map (·.cls) = fn.type.params)
    (hfn : PassedOn fn (ps.map Val.num)) {na : List NArg} {rg : List (Nat × Nat)}
    (ha : ask m.data rs (ps.map Val.num) = some (na, rg)) :
    ∃ d', passCall H argv fn ps m w = .ok (.ok ((H.call fn na w).1.errno.setWidth 32), { m with data := d' }, (H.call fn na w).2) ∧
      d' = put m.data rg (H.call fn na w).1.outs ∧ d'.length = m.data.length ∧
      ∀ k, (∀ r ∈ rg, k < r.1 ∨ r.1 + r.2 ≤ k) → d'[k]? = m.data[k]? := by
  have ha' := asks_of _ _ _ _ ha
  have harm := passArm_answered hH (argv := argv) (w := w) hmem hr hcls rfl hfn ha'
  have hsz := ha'.sizes
  refine ⟨_, by rw [passCall_arm hcls hfn.2.2.1, harm]; rfl, rfl, ?_, ?_⟩
  · have key : ∀ (rg : List (Nat × Nat)) (pl : List (Nat × Bool)) (outs : List (List Byte)) (ok : Bool) (d : List Byte),
        d.length = m.data.length → Fills ok pl outs → pl.map (·.1) = rg.map (·.2) → (∀ r ∈ rg, r.2 = 0 ∨ r.1 + r.2 ≤ m.data.length) →
        (put d rg outs).length = m.data.length := by
      intro rg
      induction rg with
      | nil => intro pl outs ok d hl _ _ _; simpa [put] using hl
      | cons r rg ih =>
        intro pl outs ok d hl hf hp hin
        match pl, outs, hp, hf with
        | (c, t) :: pl, b :: bs, hp, hf =>
          obtain ⟨h1, _, h3⟩ := hf
          simp only [List.map_cons, List.cons.injEq] at hp
          simp only [put]
          have hr := hin r (List.mem_cons_self ..)
          refine ih pl bs ok _ ?_ h3 hp.2 (fun r h => hin r (List.mem_cons_of_mem _ h))
          rcases Nat.eq_zero_or_pos b.length with h0 | h0
          · have hb := List.length_eq_zero_iff.mp h0
            subst hb
            rw [overwrite_nil]; exact hl
          · rw [overwrite_length (by omega)]; exact hl
    exact key rg _ _ _ _ rfl (hH.fills fn na w) hsz (Asks.inside ha')
  · intro k hk
    exact put_outside rfl rfl (hH.fills fn na w) hsz (Asks.inside ha') hk

/-- `random_get` of no bytes succeeds without bothering the host -/
theorem random_get_empty (H : Native) (argv : List (List Byte)) (p : BitVec 32) (m : Mem) (w : H.W) :
    passCall H argv .randomGet [⟨.i32, p⟩, ⟨.i32, (0 : BitVec 32)⟩] m w = .ok (.ok 0, m, w) := rfl

/-- **C50**. `proc_exit` ends the process with the guest's code -/
theorem proc_exit_code (H : Native) (argv : List (List Byte)) (c : BitVec 32) (m : Mem) (w : H.W) :
    passCall H argv .procExit [⟨.i32, c⟩] m w = .ok (.error (.processExit c), m, w) := by
  have e : par32 [⟨.i32, c⟩] 0 = c := by
    simp only [par32, List.map_cons, List.map_nil, List.getD_cons_zero, Val.num, Cls.num]
    exact BitVec.eq_of_toNat_eq (by simp)
  simp only [passCall, WasiFn.wants, List.map_cons, List.map_nil, if_true, passArm, e]

/-- **C45**. Arguments of other types or in another number are refused, nothing happens. -/
theorem wasi_wrong_arguments (H : Native) (argv : List (List Byte)) {fn : WasiFn} {ps : List Val} (m : Mem) (w : H.W)
    (hcls : ps.map (·.cls) ≠ fn.type.params) (hfn : fn ≠ .procRaise) : passCall H argv fn ps m w = .ok (.error .inval, m, w) := by
  have hw := (wasi_dispatch_matches_partial fn).resolve_right hfn
  simp only [passCall, hw, if_neg hcls]

/-! ### the environment -/

theorem environPtrs_eq (env : List (List Byte)) (p : BitVec 32) :
    environPtrs p ((List.range env.length).map (fun i => some (((env.take i).map (fun a => a.length + 1)).sum))) =
      (argsLoop p env [] []).1 ++ toLE 4 0 := by
  rw [argsLoop_ptrs]
  simp only [environPtrs, List.map_map, List.nil_append, List.length_nil, Nat.zero_add]
  rfl

/-- what `environ_get` does when the host's environment is `env`: the same as `args_get` on `env` -/
theorem environ_get_eq {H : Native} {w : H.W} {env : List (List Byte)} (h : HasEnv H w env) (argv : List (List Byte)) (m : Mem)
    (p q : BitVec 32) : passCall H argv .environGet [⟨.i32, p⟩, ⟨.i32, q⟩] m w =
      (argsGet m env p q >>= fun m' => pure (.ok 0, m', w)) := by
  have e1 : par32 [⟨.i32, p⟩, ⟨.i32, q⟩] 0 = p := by
    simp only [par32, List.map_cons, List.map_nil, List.getD_cons_zero, Val.num, Cls.num]
    exact BitVec.eq_of_toNat_eq (by simp)
  have e2 : par32 [⟨.i32, p⟩, ⟨.i32, q⟩] 1 = q := by
    simp only [par32, List.map_cons, List.map_nil, List.getD_cons_succ, List.getD_cons_zero, Val.num, Cls.num]
    exact BitVec.eq_of_toNat_eq (by simp)
  simp only [passCall, WasiFn.wants, List.map_cons, List.map_nil, if_true, passArm, e1, e2, pEnvironGet, h.sizes, h.get, ne_eq,
    not_true_eq_false, if_false, environPtrs_eq, argsGet]
  have eb := argsLoop_buf q env [] []
  simp only [List.nil_append] at eb
  rw [eb]
  cases m.storeBytes p ((argsLoop q env [] []).1 ++ toLE 4 0) <;> rfl

/-- **C49**. Following the pointers `environ_get` writes yields the host's environment strings, in order and NUL-terminated;
nothing outside the two areas changes (same hypotheses and same remark about the word after the pointers as for C38). -/
theorem environ_get_correct {H : Native} {w : H.W} {env : List (List Byte)} (h : HasEnv H w env) (argv : List (List Byte)) (m : Mem)
    (p q : BitVec 32) (hmem : m.data.length < 2 ^ 32) (h1 : p.toNat + 4 * (env.length + 1) ≤ m.data.length)
    (h2 : q.toNat + argsSize env ≤ m.data.length)
    (hdis : p.toNat + 4 * env.length ≤ q.toNat ∨ q.toNat + argsSize env ≤ p.toNat) :
    ∃ m', passCall H argv .environGet [⟨.i32, p⟩, ⟨.i32, q⟩] m w = .ok (.ok 0, m', w) ∧ m'.data.length = m.data.length ∧
      (∀ i a, env[i]? = some a → (m'.data.drop (u32At m' (p.toNat + 4 * i))).take (a.length + 1) = a ++ [0]) ∧
      (∀ k, (k < p.toNat ∨ p.toNat + 4 * (env.length + 1) ≤ k) → (k < q.toNat ∨ q.toNat + argsSize env ≤ k) →
        m'.data[k]? = m.data[k]?) := by
  obtain ⟨m', e, e1, e2, e3⟩ := args_get_correct m env p q hmem h1 h2 hdis
  refine ⟨m', ?_, e1, e2, e3⟩
  rw [environ_get_eq h, e]
  rfl

/-- **C49**. `environ_sizes_get` reports the number of strings and exactly the buffer size `environ_get` fills. -/
theorem environ_sizes_get_correct {H : Native} {w : H.W} {env : List (List Byte)} (h : HasEnv H w env) (argv : List (List Byte))
    (m : Mem) (p q : BitVec 32) (hn : env.length < 2 ^ 32) (hs : argsSize env < 2 ^ 32) (h1 : p.toNat + 4 ≤ m.data.length)
    (h2 : q.toNat + 4 ≤ m.data.length) (hdis : p.toNat + 4 ≤ q.toNat ∨ q.toNat + 4 ≤ p.toNat) :
    ∃ m', passCall H argv .environSizesGet [⟨.i32, p⟩, ⟨.i32, q⟩] m w = .ok (.ok 0, m', w) ∧ u32At m' p.toNat = env.length ∧
      u32At m' q.toNat = argsSize env ∧ (∀ k, (k < p.toNat ∨ p.toNat + 4 ≤ k) → (k < q.toNat ∨ q.toNat + 4 ≤ k) →
        m'.data[k]? = m.data[k]?) := by
  obtain ⟨m', e, e1, e2, e3⟩ := args_sizes_get_correct m env p q hn hs h1 h2 hdis
  refine ⟨m', ?_, e1, e2, e3⟩
  have p1 : par32 [⟨.i32, p⟩, ⟨.i32, q⟩] 0 = p := by
    simp only [par32, List.map_cons, List.map_nil, List.getD_cons_zero, Val.num, Cls.num]
    exact BitVec.eq_of_toNat_eq (by simp)
  have p2 : par32 [⟨.i32, p⟩, ⟨.i32, q⟩] 1 = q := by
    simp only [par32, List.map_cons, List.map_nil, List.getD_cons_succ, List.getD_cons_zero, Val.num, Cls.num]
    exact BitVec.eq_of_toNat_eq (by simp)
  simp only [passCall, WasiFn.wants, List.map_cons, List.map_nil, if_true, passArm, p1, p2, pEnvironSizesGet, h.sizes, ne_eq,
    not_true_eq_false, if_false]
  simp only [argsSizesGet] at e
  cases h3 : m.storeU32 p (BitVec.ofNat 32 env.length) with
  | ok m1 =>
    rw [h3, Res.bind_ok] at e
    rw [Res.bind_ok, e]
    rfl
  | trap _ => rw [h3] at e; cases e
  | panic => rw [h3] at e; cases e
  | ub => rw [h3] at e; cases e

/-! ### a host, and what goes wrong -/

/-- A host that knows two environment strings, records what it is asked, and answers every call with success, filling every
place with 7s. -/
def eager : Native where
  W := List (WasiFn × List NArg)
  call fn args w := (⟨0, (places args).map fun c => List.replicate c.1 7⟩, w ++ [(fn, args)])
  envSizes _ := (0, 2, 5)
  envGet _ := (0, [some 0, some 3], [97, 98, 0, 99, 0])

theorem eager_conforms : Conforms eager := by
  constructor
  intro fn args w
  show Fills true (places args) ((places args).map fun c => List.replicate c.1 7)
  induction places args with
  | nil => trivial
  | cons c cs ih => exact ⟨by simp, by simp, ih⟩

theorem eager_env (w : eager.W) : HasEnv eager w [[97, 98], [99]] := ⟨rfl, rfl⟩

/-- Finding (C48): a buffer outside guest memory is not answered with an error: `fd_read` makes the host write outside the
guest's memory, `random_get` likewise. -/
theorem fault_violated :
    passCall eager [] .fdRead [⟨.i32, 3#32⟩, ⟨.i32, 0#32⟩, ⟨.i32, 1#32⟩, ⟨.i32, 0#32⟩] ⟨[9, 0, 0, 0, 4, 0, 0, 0, 0, 0, 0, 0], none⟩ [] = .ub ∧
    passCall eager [] .randomGet [⟨.i32, 10#32⟩, ⟨.i32, 4#32⟩] ⟨List.replicate 12 0, none⟩ [] = .ub ∧
    passCall eager [] .fdRead [⟨.i32, 3#32⟩, ⟨.i32, 8#32⟩, ⟨.i32, 1#32⟩, ⟨.i32, 0#32⟩] ⟨List.replicate 12 0, none⟩ [] = .panic := by
  refine ⟨rfl, rfl, rfl⟩

/-- Finding (C48): a path with a NUL byte is cut off there: the guest asks to unlink "a\0b" and the host unlinks "a". -/
theorem path_with_nul_violated :
    passCall eager [] .pathUnlinkFile [⟨.i32, 3#32⟩, ⟨.i32, 0#32⟩, ⟨.i32, 3#32⟩] ⟨[97, 0, 98, 0], none⟩ [] =
      .ok (.ok 0, ⟨[97, 0, 98, 0], none⟩, [(.pathUnlinkFile, [.num 3, .str [97]])]) := by
  rfl

/-- Finding (C48): `sock_recv` and `sock_send` hand the guest's array of buffers to the host untranslated, so that the guest's
addresses are used as addresses of the interpreter, although the request is well-formed. -/
theorem sock_recv_violated : ∃ (ps : List Val) (m : Mem), ps.map (·.cls) = WasiFn.sockRecv.type.params ∧
    ((roles .sockRecv).bind fun rs => ask m.data rs (ps.map Val.num)).isSome ∧ passCall eager [] .sockRecv ps m [] = .ub :=
  ⟨[⟨.i32, 3#32⟩, ⟨.i32, 0#32⟩, ⟨.i32, 1#32⟩, ⟨.i32, 0#32⟩, ⟨.i32, 8#32⟩, ⟨.i32, 12#32⟩],
    ⟨[16, 0, 0, 0, 4, 0, 0, 0, 0, 0, 0, 0, 0, 0, 0, 0, 0, 0, 0, 0], none⟩, rfl, rfl, rfl⟩

theorem sock_send_violated : ∃ (ps : List Val) (m : Mem), ps.map (·.cls) = WasiFn.sockSend.type.params ∧
    ((roles .sockSend).bind fun rs => ask m.data rs (ps.map Val.num)).isSome ∧ passCall eager [] .sockSend ps m [] = .ub :=
  ⟨[⟨.i32, 3#32⟩, ⟨.i32, 0#32⟩, ⟨.i32, 1#32⟩, ⟨.i32, 0#32⟩, ⟨.i32, 8#32⟩],
    ⟨[16, 0, 0, 0, 4, 0, 0, 0, 0, 0, 0, 0, 0, 0, 0, 0, 0, 0, 0, 0], none⟩, rfl, rfl, rfl⟩

theorem guestIovs_spec {d : List Byte} {iovs : BitVec 32} {n : Nat} (hin : iovs.toNat + 8 * n ≤ d.length) :
    guestIovs d iovs n = if ∀ i < n, fromLE ((d.drop (iovs.toNat + 8 * i + 4)).take 4) = 0
      then .ok ((List.range n).map fun i => (fromLE ((d.drop (iovs.toNat + 8 * i)).take 4), 0)) else .ub := by
  have cut : ∀ k, k + 4 ≤ 8 * n → (((d.drop iovs.toNat).take (8 * n)).drop k).take 4 = (d.drop (iovs.toNat + k)).take 4 := by
    intro k hk
    rw [List.drop_take, List.drop_drop, List.take_take, Nat.min_eq_left (by omega)]
  have e : ((List.range n).map fun i => (fromLE ((((d.drop iovs.toNat).take (8 * n)).drop (8 * i)).take 4),
        fromLE ((((d.drop iovs.toNat).take (8 * n)).drop (8 * i + 4)).take 4))) =
      (List.range n).map fun i => (fromLE ((d.drop (iovs.toNat + 8 * i)).take 4), fromLE ((d.drop (iovs.toNat + 8 * i + 4)).take 4)) := by
    apply List.map_congr_left
    intro i hi
    have hi := List.mem_range.mp hi
    rw [cut _ (by omega), cut _ (by omega), ← Nat.add_assoc]
  simp only [guestIovs, readAt, if_pos hin, Res.bind_ok, e]
  split
  · rename_i h
    rw [if_pos (by
      intro i hi
      have := List.all_eq_true.mp h _ (List.mem_map.mpr ⟨i, List.mem_range.mpr hi, rfl⟩)
      simpa using this)]
    congr 1
    apply List.map_congr_left
    intro i hi
    have := List.all_eq_true.mp h _ (List.mem_map.mpr ⟨i, hi, rfl⟩)
    simpa using this
  · rename_i h
    rw [if_neg fun h' => h (List.all_eq_true.mpr fun v hv => by
      obtain ⟨i, hi, rfl⟩ := List.mem_map.mp hv
      simpa using h' i (List.mem_range.mp hi))]

/-- Finding (C48), for every request: with any non-empty buffer in an array inside guest memory, `sock_recv` and `sock_send` are
undefined behaviour — on every host and for all other arguments. -/
theorem sock_buffers_violated {H : Native} (argv : List (List Byte)) (m : Mem) (w : H.W) (fd iovs n flags p q : BitVec 32)
    (hin : iovs.toNat + 8 * n.toNat ≤ m.data.length) {i : Nat} (hi : i < n.toNat)
    (hne : fromLE ((m.data.drop (iovs.toNat + 8 * i + 4)).take 4) ≠ 0) :
    passCall H argv .sockRecv [⟨.i32, fd⟩, ⟨.i32, iovs⟩, ⟨.i32, n⟩, ⟨.i32, flags⟩, ⟨.i32, p⟩, ⟨.i32, q⟩] m w = .ub ∧
    passCall H argv .sockSend [⟨.i32, fd⟩, ⟨.i32, iovs⟩, ⟨.i32, n⟩, ⟨.i32, flags⟩, ⟨.i32, p⟩] m w = .ub := by
  have hg : guestIovs m.data iovs n.toNat = .ub := by
    rw [guestIovs_spec hin, if_neg fun h => hne (h i hi)]
  have e : ∀ (x : BitVec 32), BitVec.ofNat 32 (Val.num ⟨.i32, x⟩) = x := fun x => by
    show BitVec.ofNat 32 x.toNat = x
    simp
  constructor
  · show pSockRecv H m w _ _ _ _ _ _ = .ub
    simp only [par32, List.map_cons, List.getD_cons_succ, List.getD_cons_zero, e, pSockRecv, hg, Res.bind_ub]
  · show pSockSend H m w _ _ _ _ _ = .ub
    simp only [par32, List.map_cons, List.getD_cons_succ, List.getD_cons_zero, e, pSockSend, hg, Res.bind_ub]

/-- with empty buffers only, the host is asked with that many empty buffers -/
theorem sock_send_empty {H : Native} (m : Mem) (w : H.W) (fd iovs n flags p : BitVec 32)
    (hin : iovs.toNat + 8 * n.toNat ≤ m.data.length)
    (h0 : ∀ i < n.toNat, fromLE ((m.data.drop (iovs.toNat + 8 * i + 4)).take 4) = 0) :
    pSockSend H m w fd iovs n flags p =
      nativeCall H m w .sockSend [.num fd.toNat, .rd (List.replicate n.toNat []), .num flags.toNat, .ret 4] [.buf p 4] := by
  simp only [pSockSend, guestIovs_spec hin, if_pos h0, Res.bind_ok, List.map_map]
  congr 3
  simp [Function.comp_def, List.map_const']

/-- with empty buffers only, the host is asked with that many empty buffers; the places of the two results are the guest's -/
theorem sock_recv_empty {H : Native} (m : Mem) (w : H.W) (fd iovs n flags p q : BitVec 32)
    (hin : iovs.toNat + 8 * n.toNat ≤ m.data.length)
    (h0 : ∀ i < n.toNat, fromLE ((m.data.drop (iovs.toNat + 8 * i + 4)).take 4) = 0) :
    pSockRecv H m w fd iovs n flags p q =
      nativeCall H m w .sockRecv [.num fd.toNat, .wr (List.replicate n.toNat 0), .num flags.toNat, .ret 4, .ret 2]
        (List.replicate n.toNat .null ++ [.buf p 4, .buf q 2]) := by
  simp only [pSockRecv, guestIovs_spec hin, if_pos h0, Res.bind_ok, List.map_map]
  congr 3
  · simp [Function.comp_def, List.map_const']
  · simp [Function.comp_def, List.map_const']

example : fromLE ((([16, 0, 0, 0, 4, 0, 0, 0, 0, 0, 0, 0, 0, 0, 0, 0, 0, 0, 0, 0] : List Byte).drop (0 + 8 * 0 + 4)).take 4) ≠ 0 := by decide

/-- a well-formed request: `fd_read` into two buffers, the second one empty -/
example : ∃ d', passCall eager [] .fdRead [⟨.i32, 3#32⟩, ⟨.i32, 0#32⟩, ⟨.i32, 2#32⟩, ⟨.i32, 16#32⟩]
      ⟨[20, 0, 0, 0, 2, 0, 0, 0, 0, 0, 0, 0, 0, 0, 0, 0, 0, 0, 0, 0, 1, 2, 3], none⟩ [] =
        .ok (.ok 0, ⟨d', none⟩, [(.fdRead, [.num 3, .wr [2, 0], .ret 4])]) ∧
      d' = [20, 0, 0, 0, 2, 0, 0, 0, 0, 0, 0, 0, 0, 0, 0, 0, 7, 7, 7, 7, 7, 7, 3] := by
  have ha : ask [20, 0, 0, 0, 2, 0, 0, 0, 0, 0, 0, 0, 0, 0, 0, 0, 0, 0, 0, 0, 1, 2, 3] [.num 32, .bufs, .ret 4]
      (([⟨.i32, 3#32⟩, ⟨.i32, 0#32⟩, ⟨.i32, 2#32⟩, ⟨.i32, 16#32⟩] : List Val).map Val.num) =
      some ([.num 3, .wr [2, 0], .ret 4], [(20, 2), (0, 0), (16, 4)]) := by decide
  obtain ⟨d', h1, h2, _⟩ := wasi_call_partial (m := ⟨[20, 0, 0, 0, 2, 0, 0, 0, 0, 0, 0, 0, 0, 0, 0, 0, 0, 0, 0, 0, 1, 2, 3], none⟩)
    eager_conforms [] (fn := .fdRead) [] (by decide) rfl rfl ⟨by simp, by simp, by simp, fun h => by cases h⟩ ha
  exact ⟨d', h1, h2⟩

/-- and the environment of `eager` -/
example (m : Mem) (p q : BitVec 32) (hmem : m.data.length < 2 ^ 32) (h1 : p.toNat + 12 ≤ m.data.length) (h2 : q.toNat + 5 ≤ m.data.length)
    (hdis : p.toNat + 8 ≤ q.toNat ∨ q.toNat + 5 ≤ p.toNat) (w : eager.W) :
    ∃ m', passCall eager [] .environGet [⟨.i32, p⟩, ⟨.i32, q⟩] m w = .ok (.ok 0, m', w) ∧ 
      (m'.data.drop (u32At m' (p.toNat + 4))).take 2 = [99, 0] := by
  obtain ⟨m', e1, _, e2, _⟩ := environ_get_correct (eager_env w) [] m p q hmem h1 h2 hdis
  exact ⟨m', e1, e2 1 [99] rfl⟩

end Verif.Props
