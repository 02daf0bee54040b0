import Verif.Props.Pass
import Verif.Props.Safety
import Verif.Props.EndToEndEx
import Verif.Props.Resume
/-
The theorems about whole runs, for the WASI implementation the interpreter has (`passthrough`): what they assume of the WASI calls
holds of it, whatever the host does.
-/
namespace Verif.Props
open Verif.Spec Verif.Model Verif.Lemmas

/-- guest memory keeps its size -/
def SizeKept {H : Native} (m : Mem) (r : PRes H) : Prop :=
  ∀ x m' w', r = .ok (x, m', w') → m'.data.length = m.data.length ∧ m'.max = m.max

theorem bind_ok_inv {α β : Type} {r : Res α} {f : α → Res β} {b : β} (h : (r >>= f) = .ok b) : ∃ a, r = .ok a ∧ f a = .ok b := by
  cases r with
  | ok a => exact ⟨a, rfl, h⟩
  | trap _ => cases h
  | panic => cases h
  | ub => cases h

theorem writeAt_len {d : List Byte} {p : Nat} {bs d' : List Byte} (h : writeAt d p bs = .ok d') : d'.length = d.length := by
  simp only [writeAt] at h
  split at h
  · rename_i hw
    cases h
    exact overwrite_length hw
  · cases h

theorem fillAll_len : ∀ {vs : List IoVec} {bs : List (List Byte)} {d d' : List Byte}, fillAll d vs bs = .ok d' → d'.length = d.length
  | [], _, _, _, h => by simp only [fillAll] at h; cases h; rfl
  | _ :: _, [], _, _, h => by simp only [fillAll] at h; cases h; rfl
  | v :: vs, b :: bs, d, d', h => by
    simp only [fillAll] at h
    obtain ⟨d1, h1, h2⟩ := bind_ok_inv h
    rw [fillAll_len h2]
    cases v with
    | null => simp only [IoVec.fill] at h1; cases h1; rfl
    | buf p l => exact writeAt_len h1

theorem storeBytes_kept {m m' : Mem} {p : BitVec 32} {bs : List Byte} (h : m.storeBytes p bs = .ok m') :
    m'.data.length = m.data.length ∧ m'.max = m.max := by
  simp only [Mem.storeBytes] at h
  obtain ⟨d, h1, h2⟩ := bind_ok_inv h
  cases h2
  exact ⟨writeAt_len h1, rfl⟩

theorem SizeKept.same {H : Native} {m : Mem} {x : Except WasiErr (BitVec 32)} {w : H.W} : SizeKept m (.ok (x, m, w)) := by
  intro _ _ _ h; cases h; exact ⟨rfl, rfl⟩

theorem SizeKept.bind {H : Native} {α : Type} {m : Mem} {r : Res α} {f : α → PRes H} (h : ∀ a, r = .ok a → SizeKept m (f a)) :
    SizeKept m (r >>= f) := by
  intro x m' w' e
  obtain ⟨a, h1, h2⟩ := bind_ok_inv e
  exact h a h1 x m' w' h2

theorem SizeKept.ite {H : Native} {c : Prop} [Decidable c] {m : Mem} {r s : PRes H} (h1 : SizeKept m r) (h2 : SizeKept m s) :
    SizeKept m (if c then r else s) := by
  split <;> assumption

theorem SizeKept.panic {H : Native} {m : Mem} : SizeKept (H := H) m .panic := fun _ _ _ h => by cases h

theorem nativeCall_kept {H : Native} {m : Mem} {w : H.W} {fn : WasiFn} {as : List NArg} {vs : List IoVec} :
    SizeKept m (nativeCall H m w fn as vs) := by
  refine .bind fun d hd _ _ _ h => ?_
  cases h
  exact ⟨fillAll_len hd, rfl⟩

theorem nativeCallLocal_kept {H : Native} {m : Mem} {w : H.W} {fn : WasiFn} {as : List NArg} {vs : List IoVec} {k : Nat} {p : BitVec 32} :
    SizeKept m (nativeCallLocal H m w fn as vs k p) := by
  refine .bind fun d hd => .bind fun m1 h1 _ _ _ h => ?_
  cases h
  simp only [storeResult] at h1
  split at h1
  · have := storeBytes_kept h1
    exact ⟨this.1.trans (fillAll_len hd), this.2⟩
  · cases h1
    exact ⟨fillAll_len hd, rfl⟩

theorem fdWrite_kept {host : List (List Byte) → BitVec 16 × BitVec 32} {m : Mem} {p n q : BitVec 32} {o : FdWriteOut}
    (h : fdWrite host m p n q = .ok o) : o.mem.data.length = m.data.length ∧ o.mem.max = m.max := by
  simp only [fdWrite] at h
  split at h
  · cases h
  · obtain ⟨v, h1, h2⟩ := bind_ok_inv h
    cases v with
    | error e => cases h2; exact ⟨rfl, rfl⟩
    | ok vs =>
      obtain ⟨bs, h3, h4⟩ := bind_ok_inv h2
      split at h4
      · obtain ⟨m', h5, h6⟩ := bind_ok_inv h4
        cases h6
        exact storeBytes_kept h5
      · cases h4; exact ⟨rfl, rfl⟩

theorem two_stores_kept {H : Native} {m : Mem} {p q : BitVec 32} {bs bs' : List Byte} {x : Except WasiErr (BitVec 32)} {w : H.W} :
    SizeKept (H := H) m (m.storeBytes p bs >>= fun m1 => m1.storeBytes q bs' >>= fun m2 => pure (x, m2, w)) := by
  refine .bind fun m1 h1 => .bind fun m2 h2 _ _ _ h => ?_
  cases h
  have a := storeBytes_kept h1
  have b := storeBytes_kept h2
  exact ⟨b.1.trans a.1, b.2.trans a.2⟩

theorem passArm_kept {H : Native} {argv : List (List Byte)} (fn : WasiFn) {ps : List Val} {m : Mem} {w : H.W} :
    SizeKept m (passArm H argv fn ps m w) := by
  cases fn
  case fdWrite =>
    refine .bind fun o ho _ _ _ h => ?_
    cases h
    exact fdWrite_kept ho
  case fdRead | fdPread => exact .ite .panic (.bind fun _ _ => nativeCallLocal_kept)
  case fdPwrite => exact .ite .panic (.bind fun _ _ => .bind fun _ _ => nativeCallLocal_kept)
  case randomGet => exact .ite .same nativeCall_kept
  case environGet => exact .ite .same (.ite .same two_stores_kept)
  case environSizesGet => exact .ite .same two_stores_kept
  case argsGet =>
    refine .bind fun m' h' _ _ _ h => ?_
    cases h
    simp only [argsGet] at h'
    obtain ⟨m1, h1, h2⟩ := bind_ok_inv h'
    have a := storeBytes_kept h1
    have b := storeBytes_kept h2
    exact ⟨b.1.trans a.1, b.2.trans a.2⟩
  case argsSizesGet =>
    refine .bind fun m' h' _ _ _ h => ?_
    cases h
    simp only [argsSizesGet] at h'
    obtain ⟨m1, h1, h2⟩ := bind_ok_inv h'
    have a := storeBytes_kept h1
    have b := storeBytes_kept h2
    exact ⟨b.1.trans a.1, b.2.trans a.2⟩
  all_goals first
    | exact SizeKept.same
    | exact nativeCall_kept
    | exact nativeCallLocal_kept
    | exact .bind fun _ _ => nativeCall_kept
    | exact .bind fun _ _ => .bind fun _ _ => nativeCall_kept

theorem passCall_kept {H : Native} {argv : List (List Byte)} {fn : WasiFn} {ps : List Val} {m : Mem} {w : H.W} :
    SizeKept m (passCall H argv fn ps m w) := by
  unfold passCall
  split
  · exact .same
  · exact .ite (passArm_kept fn) .same

theorem all_id (fn : WasiFn) : WasiFn.all[fn.id]? = some fn := by cases fn <;> rfl

theorem passthrough_inv {H : Native} {argv : List (List Byte)} {id : Nat} {ps : List Val} {m : Mem} {w : H.W} {res : Option Val} {m' : Mem}
    {w' : H.W} (h : (passthrough H argv).call id ps m w = .ok (some res, m', w')) :
    ∃ fn e, WasiFn.all[id]? = some fn ∧ passCall H argv fn ps m w = .ok (.ok e, m', w') ∧ res = some ⟨.i32, e⟩ := by
  simp only [passthrough] at h
  split at h
  · rename_i fn hfn
    obtain ⟨⟨x, m1, w1⟩, h1, h2⟩ := bind_ok_inv h
    cases x with
    | ok e => cases h2; exact ⟨fn, e, hfn, h1, rfl⟩
    | error e => cases e <;> cases h2
  · cases h

/-- WASI calls never resize the guest's memory (C12), whatever the host does -/
theorem passthrough_keeps_size (H : Native) (argv : List (List Byte)) : WasiKeepsSize (passthrough H argv) := by
  intro id ps mem w res mem' w' h
  simp only [passthrough] at h
  split at h
  · obtain ⟨⟨x, m1, w1⟩, h1, h2⟩ := bind_ok_inv h
    cases x with
    | ok e => cases h2; exact passCall_kept _ _ _ h1
    | error e => cases e <;> cases h2 <;> exact passCall_kept _ _ _ h1
  · cases h; exact ⟨rfl, rfl⟩

/-- a call that returns delivers a value of the type of the function -/
theorem passthrough_typed {H : Native} {argv : List (List Byte)} {fn : WasiFn} {ps : List Val} {m : Mem} {w : H.W} {res : Option Val}
    {m' : Mem} {w' : H.W} (h : (passthrough H argv).call fn.id ps m w = .ok (some res, m', w')) :
    res.toList.map (·.cls) = fn.type.results := by
  obtain ⟨fn', e, h1, h2, rfl⟩ := passthrough_inv h
  rw [all_id] at h1
  cases h1
  cases fn
  case procExit =>
    simp only [passCall, WasiFn.wants] at h2
    split at h2 <;> cases h2
  all_goals rfl

/-- Being well-formed does not depend on the host: what `Accepted` asks of host functions holds of the WASI implementation the
interpreter has. -/
theorem wellFormed_passthrough {S : Wasi} {A : SMod} {H : FloatHost} (h : A.WellFormed S H) (N : Native) (argv : List (List Byte)) :
    A.WellFormed (passthrough N argv) H := by
  refine { h with accepted := ⟨h.accepted.faithful, h.accepted.fits, ?_, h.accepted.one⟩ }
  intro t id hm args m w r m' w' _ hc
  simp only [SMod.source, List.mem_append, List.mem_map, reduceCtorEq, and_false, exists_false, or_false] at hm
  obtain ⟨i, hi, e⟩ := hm
  obtain ⟨fn, hfn, _⟩ := h.imports i hi
  simp only [hostFunc, hfn, SFunc.wasi.injEq] at e
  obtain ⟨rfl, rfl⟩ := e
  exact passthrough_typed hc

/-- **C12** for runs with the interpreter's own WASI implementation: whatever the host answers, memory stays whole pages below
4 GiB and `memory.size` is its exact length. -/
theorem command_memory_paged_partial {N : Native} {argv : List (List Byte)} {E : Env} {D : Dispatcher} (hD : IsD E D) {en : Bool}
    {m m' : Machine (passthrough N argv)} (h : Reach E D en m m') (h0 : ∀ mem, m.inst.mem = some mem → Paged mem) (mem : Mem)
    (hm : m'.inst.mem = some mem) : Paged mem ∧ mem.size.toNat * pageSize = mem.data.length :=
  run_memory_paged_partial hD h (passthrough_keeps_size N argv) h0 mem hm

/-- **C30** with the interpreter's own WASI implementation, over any host -/
theorem command_migration_transparent_partial {N : Native} {argv : List (List Byte)} (lz : Lz) {E : Env} (hin : InsideP E.P)
    (hP : KeepsSegments E.P) (i : Inst) (w : N.W) (f : Nat) (ps : List Val) {m m' : Machine (passthrough N argv)}
    (hnew : Machine.new E.P i w f ps = .ok m) (h : MigratesStar lz E i m m') {D D' : Dispatcher} (hD : IsD E.quiet D)
    (hD' : IsD E.quiet D') (en en' : Bool) (o : Res (List Val × Inst × N.W)) :
    Runs E.quiet D en m o ↔ Runs E.quiet D' en' m' o :=
  checkpoint_restore_transparent_partial (passthrough_keeps_size N argv) lz hin hP i w f ps hnew h hD hD' en en' o

/-- The places a call names lie in guest memory (and it is not one of the socket calls whose buffers are not translated). -/
def InRange (N : Native) (argv : List (List Byte)) (w : N.W) (fn : WasiFn) (ns : List Nat) (d : List Byte) : Prop :=
  match fn with
  | .procExit | .procRaise => True
  | .sockRecv | .sockSend => False
  | .argsGet => ns.getD 0 0 + 4 * (argv.length + 1) ≤ d.length ∧ ns.getD 1 0 + argsSize argv ≤ d.length
  | .environGet => ns.getD 0 0 + 4 * ((N.envGet w).2.1.length + 1) ≤ d.length ∧ ns.getD 1 0 + (N.envGet w).2.2.length ≤ d.length
  | .argsSizesGet | .environSizesGet => ns.getD 0 0 + 4 ≤ d.length ∧ ns.getD 1 0 + 4 ≤ d.length
  | .randomGet => ns.getD 0 0 + ns.getD 1 0 ≤ d.length ∨ ns.getD 1 0 = 0
  | _ => ∃ rs q, roles fn = some rs ∧ ask d rs ns = some q

theorem par32_toNat {ps : List Val} {cs : List Cls} (h : ps.map (·.cls) = cs) (i : Nat) (hi : cs[i]? = some .i32) :
    (par32 ps i).toNat = (ps.map Val.num).getD i 0 := by
  rw [par32, BitVec.toNat_ofNat, Nat.mod_eq_of_lt (num_i32 h i hi)]

theorem storeBytes_in {m : Mem} {p : BitVec 32} {bs : List Byte} (h : p.toNat + bs.length ≤ m.data.length) :
    ∃ m', m.storeBytes p bs = .ok m' ∧ m'.data.length = m.data.length := by
  refine ⟨_, by simp only [Mem.storeBytes, writeAt, if_pos h, Res.bind_ok]; rfl, overwrite_length h⟩

theorem two_stores_in {H : Native} {m : Mem} {p q : BitVec 32} {bs bs' : List Byte} {x : Except WasiErr (BitVec 32)} {w : H.W}
    (h1 : p.toNat + bs.length ≤ m.data.length) (h2 : q.toNat + bs'.length ≤ m.data.length) :
    ((m.storeBytes p bs >>= fun m1 => m1.storeBytes q bs' >>= fun m2 => pure (x, m2, w)) : PRes H) ≠ .ub := by
  obtain ⟨m1, e1, l1⟩ := storeBytes_in h1
  obtain ⟨m2, e2, _⟩ := storeBytes_in (m := m1) (p := q) (bs := bs') (by omega)
  rw [e1, Res.bind_ok, e2, Res.bind_ok]
  nofun

theorem environPtrs_length (p : BitVec 32) (os : List (Option Nat)) : (environPtrs p os).length = 4 * (os.length + 1) := by
  induction os with
  | nil => rfl
  | cons o os ih =>
    have e : environPtrs p (o :: os) = (match o with
      | some k => toLE 4 (p + BitVec.ofNat 32 k).toNat
      | none => toLE 4 0) ++ environPtrs p os := by
      simp only [environPtrs, List.map_cons, List.flatten_cons, List.append_assoc]
      cases o <;> rfl
    rw [e, List.length_append, ih, List.length_cons]
    cases o <;> simp [toLE] <;> omega

theorem argsBuf_length (p : BitVec 32) (argv : List (List Byte)) : (argsLoop p argv [] []).2.length = argsSize argv := by
  rw [argsLoop_buf, List.nil_append]
  induction argv with
  | nil => rfl
  | cons a as ih => rw [List.map_cons, List.flatten_cons, List.length_append, ih, argsSize_cons]; simp

/-- a call whose places lie in guest memory is defined, with a host that keeps to the interface -/
theorem host_call_defined {N : Native} (hN : Conforms N) {argv : List (List Byte)} {fn : WasiFn} {ps : List Val} {m : Mem} {w : N.W}
    (hmem : m.data.length < 2 ^ 31) (h : InRange N argv w fn (ps.map Val.num) m.data) : passCall N argv fn ps m w ≠ .ub := by
  by_cases hcls : ps.map (·.cls) = fn.type.params
  · by_cases hr : fn = .procRaise
    · subst hr; nofun
    have gen : ∀ rs q, roles fn = some rs → ask m.data rs (ps.map Val.num) = some q → PassedOn fn (ps.map Val.num) →
        passCall N argv fn ps m w ≠ .ub := by
      intro rs q h1 h2 h3
      obtain ⟨na, rg⟩ := q
      obtain ⟨d', e, _⟩ := wasi_call_partial hN argv w hmem h1 hcls h3 h2
      rw [e]; nofun
    rw [passCall_arm hcls hr]
    cases fn
    case procExit => nofun
    case procRaise => exact absurd rfl hr
    case sockRecv => exact h.elim
    case sockSend => exact h.elim
    case argsGet =>
      simp only [InRange] at h
      rw [← par32_toNat hcls 0 rfl, ← par32_toNat hcls 1 rfl] at h
      have e1 : ((argsLoop (par32 ps 1) argv [] []).1 ++ toLE 4 0).length = 4 * (argv.length + 1) := by
        rw [← environPtrs_eq, environPtrs_length]
        simp
      have e2 : (argsLoop (par32 ps 1) argv [] []).2.length = argsSize argv := argsBuf_length _ _
      obtain ⟨m1, f1, l1⟩ := storeBytes_in (m := m) (p := par32 ps 0) (bs := (argsLoop (par32 ps 1) argv [] []).1 ++ toLE 4 0)
        (by rw [e1]; exact h.1)
      obtain ⟨m2, f2, _⟩ := storeBytes_in (m := m1) (p := par32 ps 1) (bs := (argsLoop (par32 ps 1) argv [] []).2)
        (by rw [e2, l1]; exact h.2)
      simp only [passArm, pArgsGet, argsGet, f1, f2, Res.bind_ok]
      nofun
    case environGet =>
      simp only [InRange] at h
      rw [← par32_toNat hcls 0 rfl, ← par32_toNat hcls 1 rfl] at h
      simp only [passArm, pEnvironGet]
      split
      · nofun
      · split
        · nofun
        · exact two_stores_in (by rw [environPtrs_length]; exact h.1) h.2
    case argsSizesGet =>
      simp only [InRange] at h
      rw [← par32_toNat hcls 0 rfl, ← par32_toNat hcls 1 rfl] at h
      obtain ⟨m1, f1, l1⟩ := storeBytes_in (m := m) (p := par32 ps 0) (bs := toLE 4 (BitVec.ofNat 32 argv.length).toNat)
        (by simpa [toLE] using h.1)
      obtain ⟨m2, f2, _⟩ := storeBytes_in (m := m1) (p := par32 ps 1)
        (bs := toLE 4 (BitVec.ofNat 32 ((argv.map (fun a => a.length + 1)).sum)).toNat) (by rw [l1]; simpa [toLE] using h.2)
      simp only [passArm, pArgsSizesGet, argsSizesGet, Mem.storeU32, f1, f2, Res.bind_ok]
      nofun
    case environSizesGet =>
      simp only [InRange] at h
      rw [← par32_toNat hcls 0 rfl, ← par32_toNat hcls 1 rfl] at h
      simp only [passArm, pEnvironSizesGet]
      split
      · nofun
      · exact two_stores_in (by simpa [toLE] using h.1) (by simpa [toLE] using h.2)
    case randomGet =>
      simp only [InRange] at h
      rw [← par32_toNat hcls 0 rfl, ← par32_toNat hcls 1 rfl] at h
      by_cases h0 : (par32 ps 1).toNat = 0
      · simp only [passArm, pRandomGet]
        rw [if_pos (BitVec.eq_of_toNat_eq h0)]
        nofun
      · have h' : (par32 ps 0).toNat + (par32 ps 1).toNat ≤ m.data.length := by omega
        rw [← passCall_arm hcls hr]
        obtain ⟨x, y, e⟩ : ∃ x y, ps.map Val.num = [x, y] := by
          have : (ps.map Val.num).length = 2 := by rw [List.length_map, ← List.length_map (f := (·.cls)), hcls]; rfl
          match hp : ps.map Val.num, this with
          | [x, y], _ => exact ⟨x, y, rfl⟩
        rw [par32_toNat hcls 0 rfl, par32_toNat hcls 1 rfl, e] at h'
        rw [par32_toNat hcls 1 rfl, e] at h0
        refine gen [.buf] ([.out y], [(x, y)]) rfl ?_ ⟨nofun, nofun, hr, fun _ => by rw [e]; exact h0⟩
        rw [e]
        simp only [List.getD_cons_succ, List.getD_cons_zero] at h'
        simp only [ask, if_pos h', Option.map_some]
    all_goals
      obtain ⟨rs, q, h1, h2⟩ := h
      rw [← passCall_arm hcls hr]
      exact gen rs q h1 h2 ⟨nofun, nofun, hr, nofun⟩
  · by_cases hr : fn = .procRaise
    · subst hr; nofun
    · rw [wasi_wrong_arguments N argv m w hcls hr]; nofun

/-- the running frame makes a WASI call with a place outside guest memory (or a socket call with buffers), or with a memory of
2 GiB or more, which the interpreter cannot have -/
def CallWrong {N : Native} {argv : List (List Byte)} (E : Env) (D : Dispatcher) (m : Machine (passthrough N argv)) (f : Frame) : Prop :=
  ∃ n fn ps r d mem, D n (E.P.body f.func) (m.enter f) = some (.ok (.yield (.wasi (WasiFn.id fn) ps r) d)) ∧
    d.vm.inst.mem = some mem ∧ (2 ^ 31 ≤ mem.data.length ∨ ¬ InRange N argv m.world fn (ps.map Val.num) mem.data)

theorem all_inv {id : Nat} {fn : WasiFn} (h : WasiFn.all[id]? = some fn) : id = fn.id := by
  have key : ∀ i : Fin 46, ∀ fn, WasiFn.all[i.val]? = some fn → i.val = fn.id := by decide +kernel
  have : id < 46 := (List.getElem?_eq_some_iff.mp h).1
  exact key ⟨id, this⟩ fn h

/-- **C47** with the interpreter's own WASI implementation over a host that keeps to the interface: a run of a validated module has
undefined behaviour only because an instruction accesses linear memory outside its bounds or a WASI call names a place outside it. -/
theorem command_undefined_only_outside_memory {N : Native} (hN : Conforms N) {argv : List (List Byte)} {Q : SProg} {globals : List Cls}
    {E : Env} (hv : Validated Q globals) (hc : Q.compile globals = some E.P) {D : Dispatcher} (hD : IsD E D)
    {m : Machine (passthrough N argv)} (hm : Lives E.P m) {en : Bool} {n : Nat} (h : m.run E D en n = some .ub) :
    ∃ m' f fs, Reach E D en { m with frames := setFirstEnable en m.frames } m' ∧ m'.frames = f :: fs ∧
      (MemoryWrong E m' f ∨ CallWrong E D m' f) := by
  obtain ⟨m', f, fs, h1, h2, h3⟩ := undefined_only_outside_memory hv hc hD hm h
  refine ⟨m', f, fs, h1, h2, h3.imp id fun hw => ?_⟩
  obtain ⟨k, id, ps, r, d, mem, e1, e2, e3⟩ := hw
  simp only [passthrough] at e3
  split at e3
  · rename_i fn hfn
    refine ⟨k, fn, ps, r, d, mem, by rw [← all_inv hfn]; exact e1, e2, ?_⟩
    by_cases hl : 2 ^ 31 ≤ mem.data.length
    · exact .inl hl
    · refine .inr fun hi => ?_
      have hd := host_call_defined hN (by omega) hi
      cases hc : passCall N argv fn ps mem m'.world with
      | ok x =>
        rw [hc, Res.bind_ok] at e3
        obtain ⟨y, m1, w1⟩ := x
        cases y with
        | ok e => cases e3
        | error e => cases e <;> cases e3
      | trap _ => rw [hc] at e3; cases e3
      | panic => rw [hc] at e3; cases e3
      | ub => exact hd hc
  · cases e3

/-- the module of `FileEx` over the host `eager` -/
example : FileEx.A.WellFormed (passthrough eager [[112]]) Sample.host := wellFormed_passthrough FileEx.wellFormed eager _

/-- a call that is in range, and one that is not -/
example (w : eager.W) : InRange eager [[112]] w .fdRead [3, 0, 1, 8] [12, 0, 0, 0, 2, 0, 0, 0, 0, 0, 0, 0, 1, 2] ∧
    ¬ InRange eager [[112]] w .fdRead [3, 0, 1, 8] [12, 0, 0, 0, 3, 0, 0, 0, 0, 0, 0, 0, 1, 2] := by
  constructor
  · exact ⟨[.num 32, .bufs, .ret 4], ([.num 3, .wr [2], .ret 4], [(12, 2), (8, 4)]), rfl, by decide⟩
  · rintro ⟨rs, q, h1, h2⟩
    cases h1
    have : ask [12, 0, 0, 0, 3, 0, 0, 0, 0, 0, 0, 0, 1, 2] [.num 32, .bufs, .ret 4] [3, 0, 1, 8] = none := by decide
    rw [this] at h2
    cases h2

end Verif.Props
