import Verif.Props.Machine
/-
C20: calls pass arguments, zero locals and deliver results.  C21: call_indirect.
-/
namespace Verif.Props
open Verif.Model

theorem getVals_spec (r : RegFile) : ∀ (rs : List Reg) (vs : List Val), r.getVals rs = .ok vs →
    vs.length = rs.length ∧ ∀ i (h : i < rs.length) (h' : i < vs.length), r.getVal rs[i] = .ok vs[i]
  | [], vs, h => by simp only [RegFile.getVals, Res.ok_inj] at h; subst h; simp
  | x :: xs, vs, h => by
    simp only [RegFile.getVals, Res.bind_eq_ok, Res.pure_eq, Res.ok_inj] at h
    obtain ⟨v, hv, vs', hvs, rfl⟩ := h
    obtain ⟨h1, h2⟩ := getVals_spec r xs vs' hvs
    refine ⟨by simp [h1], fun i hi hi' => ?_⟩
    cases i with
    | zero => exact hv
    | succ i => exact h2 i (by simpa using hi) (by simpa using hi')

theorem setVal_reads_back {r r' : RegFile} {x : Reg} {v : Val} (hc : v.cls = x.cls) (hv : x.cls ≠ .v128)
    (h : r.setVal x v = .ok r') : r'.getVal x = .ok v := by
  obtain ⟨c, i⟩ := x
  obtain ⟨cv, vv⟩ := v
  simp only at hc hv
  subst hc
  have key : r.set cv i vv = .ok r' := by
    cases cv <;> simp_all [RegFile.setVal]
  simp only [RegFile.getVal, (set_only_that_register _ _ _ _ _ key).1]
  rfl

theorem setVal_other {r r' : RegFile} {x y : Reg} {v : Val} (hne : y ≠ x) (h : r.setVal x v = .ok r') :
    r'.getVal y = r.getVal y := by
  have := setVal_only_that_register r r' x v h y.cls y.idx (by
    cases x; cases y; simp only [ne_eq, Reg.mk.injEq, not_and] at hne
    rename_i c i c' i'
    by_cases hcc : c' = c
    · exact .inr (hne hcc)
    · exact .inl hcc)
  simp only [RegFile.getVal, this]

/-- C20, delivery of results: distinct result registers receive the values in order and nothing else changes. -/
theorem results_delivered_in_order_partial : ∀ (rs : List Reg) (vs : List Val) (r r' : RegFile), rs.length = vs.length →
    (∀ i (h : i < rs.length) (h' : i < vs.length), vs[i].cls = rs[i].cls) → (∀ x ∈ rs, x.cls ≠ .v128) → rs.Nodup →
    r.setVals rs vs = .ok r' →
    (∀ i (h : i < rs.length) (h' : i < vs.length), r'.getVal rs[i] = .ok vs[i]) ∧
    (∀ y, y ∉ rs → r'.getVal y = r.getVal y)
  | [], vs, r, r', _, _, _, _, h => by simp only [RegFile.setVals, Res.ok_inj] at h; subst h; simp
  | x :: xs, [], r, r', hl, _, _, _, _ => by simp at hl
  | x :: xs, v :: vs, r, r', hl, ht, hv, hn, h => by
    simp only [RegFile.setVals, Res.bind_eq_ok] at h
    obtain ⟨r1, h1, h2⟩ := h
    have hn' := List.nodup_cons.mp hn
    obtain ⟨h3, h4⟩ := results_delivered_in_order_partial xs vs r1 r' (by simpa using hl)
      (fun i hi hi' => ht (i + 1) (by simpa using hi) (by simpa using hi')) (fun y hy => hv y (by simp [hy])) hn'.2 h2
    constructor
    · intro i hi hi'
      cases i with
      | zero =>
        simp only [List.getElem_cons_zero]
        rw [h4 x hn'.1]
        exact setVal_reads_back (ht 0 (by simp) (by simp)) (hv x (by simp)) h1
      | succ i => exact h3 i (by simpa using hi) (by simpa using hi')
    · intro y hy
      simp only [List.mem_cons, not_or] at hy
      rw [h4 y hy.2]
      exact setVal_other hy.1 h1

example : ∃ r', exRegs.setVals [⟨.i64, 0⟩, ⟨.i32, 1⟩] [⟨.i64, (5 : BitVec 64)⟩, ⟨.i32, (6 : BitVec 32)⟩] = .ok r' ∧
    r'.getVal ⟨.i64, 0⟩ = .ok ⟨.i64, (5 : BitVec 64)⟩ ∧ r'.getVal ⟨.i32, 1⟩ = .ok ⟨.i32, (6 : BitVec 32)⟩ :=
  ⟨_, rfl, rfl, rfl⟩

/-- Without the restriction the claim is false: a v128 result register is never written. -/
theorem v128_results_violated (r : RegFile) (i : Nat) (v : Val) : r.setVals [⟨.v128, i⟩] [v] = .ok r := rfl

/-- number of locals of a class list: `n` zeros of each declared class, in declaration order -/
def zeros (ls : List (Nat × Cls)) : List Val := ls.flatMap fun p => List.replicate p.1 p.2.zeroVal

/-- C20, start of a call.  Executing `call g` in the running frame reads the argument registers in order; the callee
starts at its first instruction with locals = arguments followed by one zero/null per declared local; the caller will
resume at the next instruction with its own locals, and the instance and world are unchanged. -/
theorem call_binds_arguments {S : Wasi} {E : Env} {en : Bool} {m : Machine S} {f : Frame} {fs : List Frame}
    (hf : m.frames = f :: fs) {d : DState} {g : Nat} {params results : List Reg} {y : Yield} {vm : VM} {len : Nat}
    (hs : step E.H E.P len d.vm (.call g params results) = .ok (.yield y vm)) {r : Round S}
    (hr : m.react E en f (.yield y { d with vm := vm }) = .ok r) :
    ∃ t code args callee caller m', E.P.funcs[g]? = some (.runtime t code) ∧ r = .running m' ∧
      (args.length = params.length ∧ ∀ i (h : i < params.length) (h' : i < args.length),
        d.vm.rf.getVal params[i] = .ok args[i]) ∧
      m'.frames = callee :: caller :: fs ∧
      callee.func = g ∧ callee.locals = args ++ zeros code.locals ∧
      callee.labels = [⟨false, 0, 0⟩] ∧ callee.n = t.results.length ∧
      caller.func = f.func ∧ caller.locals = d.vm.locals ∧ caller.resultRegs = results ∧
      (∀ l ls, d.vm.labels = l :: ls → caller.labels = { l with ip := d.vm.pc + 1 } :: ls) ∧
      m'.rf = enterRegs d.vm.rf code.alloc ∧ m'.inst = d.vm.inst ∧ m'.world = m.world := by
  simp only [step] at hs
  split at hs
  · cases hs
  · simp only [Res.bind_eq_ok, Res.pure_eq, Res.ok_inj, Out.yield.injEq] at hs
    obtain ⟨args, ha, rs, hrs, rfl, rfl⟩ := hs
    have hrs' : rs = results := by
      unfold cap8 at hrs; split at hrs
      · cases hrs; rfl
      · cases hrs
    subst hrs'
    simp only [Machine.react, Machine.doInvoke] at hr
    split at hr
    · rename_i t code hc
      simp only [Res.bind_eq_ok, Res.pure_eq, Res.ok_inj] at hr
      obtain ⟨ls, hls, rfl⟩ := hr
      have hls' : ls = zeros code.locals := by
        unfold callLocals at hls; split at hls
        · cases hls
        · cases hls; rfl
      subst hls'
      obtain ⟨c, hcf, h1, h2, h3⟩ : ∃ c : Frame, (m.leave f { d with vm := d.vm.next }).frames = c :: fs ∧
          c.func = f.func ∧ c.locals = d.vm.locals ∧
          (∀ l ls, d.vm.labels = l :: ls → c.labels = { l with ip := d.vm.pc + 1 } :: ls) :=
        ⟨_, leave_frames hf, rfl, rfl, fun l ls hl => by simp only [VM.next, hl]⟩
      simp only [hcf]
      exact ⟨t, code, args, newFrame (m.leave f { d with vm := d.vm.next }).inst g t (args ++ zeros code.locals) en,
        { c with resultRegs := rs }, _, hc, rfl, getVals_spec _ _ _ ha, rfl, rfl, rfl, rfl, rfl, h1, h2, rfl, h3, rfl,
        rfl, rfl⟩
    · cases hr
    · cases hr

/-- The claim does not extend to callees with reference-typed declared locals: the interpreter panics on calling them
(`Val::default_value` is `todo!()` for references). -/
theorem ref_locals_violated {S : Wasi} (P : Prog) (en : Bool) (m : Machine S) (g : Nat) (t : FuncType) (code : Code)
    (hg : P.funcs[g]? = some (.runtime t code)) (n : Nat) (hn : 0 < n) (hl : (n, .ref) ∈ code.locals)
    (ps : List Val) (rs : List Reg) : m.doInvoke P en g ps rs = .panic := by
  have : callLocals code.locals = .panic := by
    unfold callLocals
    rw [if_pos]
    rw [List.any_eq_true]
    exact ⟨_, hl, by simp [hn]⟩
  simp only [Machine.doInvoke, hg, this]
  rfl

/-- more than eight results cannot be returned: the call instruction panics -/
theorem nine_results_violated (H : FloatHost) (P : Prog) (len : Nat) (s : VM) (g : Nat) (results : List Reg)
    (h : 8 < results.length) (hg : ∃ fi, P.funcs[g]? = some fi) : step H P len s (.call g [] results) = .panic := by
  obtain ⟨fi, hg⟩ := hg
  simp only [step, hg, RegFile.getVals, Res.bind_ok, cap8]
  rw [if_neg (by omega)]
  rfl

/-- the sample run performs a call that meets the assumptions: function 1 is entered with the argument 4 and one zero
local, the caller resumes at pc 2 -/
example : (match Sample.machine.round Sample.env (loopD Sample.env) true 20 with
    | some (.ok (.running m)) => m.frames.map fun f => (f.func, f.locals, f.labels.map Label.ip)
    | _ => []) =
    [(1, [⟨.i32, (4 : BitVec 32)⟩, ⟨.i32, (0 : BitVec 32)⟩], [0]), (0, [], [2])] := by decide +kernel

/-- … and `call_returns_to_caller` applies to it: one round later the caller is back with register 0 holding 10 -/
example : (match Sample.machine.round Sample.env (loopD Sample.env) true 20 with
    | some (.ok (.running m)) =>
      match m.round Sample.env (loopD Sample.env) true 40 with
      | some (.ok (.running m')) => (m'.frames.map Frame.func, m'.rf.getVal ⟨.i32, 0⟩)
      | _ => ([], .panic)
    | _ => ([], .panic)) = ([0], .ok ⟨.i32, (10 : BitVec 32)⟩) := by decide +kernel

theorem Sample.allocated : Allocated Sample.prog := by
  intro f t code h
  match f, h with
  | 0, h => simp [Sample.prog] at h; rw [← h.2]; rfl
  | 1, h => simp [Sample.prog] at h; rw [← h.2]; rfl
  | f + 2, h => simp [Sample.prog] at h

/-! ### C21 -/

/-- C21.  `call_indirect` hands control to a function only if the table slot selected by the (unsigned) index exists,
holds a function reference, and that function's type is the expected one; then it is that function, with the arguments
in order.  In every other case nothing is called. -/
theorem call_indirect_checked (H : FloatHost) (P : Prog) (len : Nat) (s : VM) (ty t idx : Nat) (params results : List Reg)
    (o : Out) (h : step H P len s (.callIndirect ty t idx params results) = .ok o) :
    ∃ (i : BitVec 32) (tb : List Ref) (f : Nat) (fi : FuncInst) (want : FuncType) (args : List Val),
      s.rf.get .i32 idx = .ok i ∧ s.inst.tables[t]? = some tb ∧ tb[i.toNat]? = some (.func f) ∧
      P.funcs[f]? = some fi ∧ P.types[ty]? = some want ∧ fi.type = want ∧
      s.rf.getVals params = .ok args ∧ o = .yield (.invoke f args results) s.next := by
  simp only [step, Res.bind_eq_ok] at h
  obtain ⟨i, hi, h⟩ := h
  split at h
  · cases h
  · rename_i tb htb
    split at h
    · rename_i f hf
      split at h
      · rename_i fi want hfi hw
        split at h
        · rename_i hty
          simp only [Res.bind_eq_ok, Res.pure_eq, Res.ok_inj] at h
          obtain ⟨args, ha, rs, hrs, rfl⟩ := h
          have hrs' : rs = results := by
            unfold cap8 at hrs; split at hrs
            · cases hrs; rfl
            · cases hrs
          subst hrs'
          exact ⟨i, tb, f, fi, want, args, hi, htb, hf, hfi, hw, hty, ha, rfl⟩
        · cases h
      · cases h
    · cases h

/-- C21, the failing cases, for a module-valid instruction (table and type index exist, table elements name existing
functions): out-of-range index and null/non-function element abort, a different type is reported as
`IndirectCallTypeMismatch`; the outcome is never undefined behaviour. -/
theorem call_indirect_fails (H : FloatHost) (P : Prog) (len : Nat) (s : VM) (ty t idx : Nat) (params results : List Reg)
    (i : BitVec 32) (tb : List Ref) (want : FuncType) (hi : s.rf.get .i32 idx = .ok i)
    (htb : s.inst.tables[t]? = some tb) (hw : P.types[ty]? = some want) :
    (tb.length ≤ i.toNat → step H P len s (.callIndirect ty t idx params results) = .panic) ∧
    (∀ r, tb[i.toNat]? = some r → (∀ f, r ≠ .func f) →
      step H P len s (.callIndirect ty t idx params results) = .panic) ∧
    (∀ f fi, tb[i.toNat]? = some (.func f) → P.funcs[f]? = some fi → fi.type ≠ want →
      step H P len s (.callIndirect ty t idx params results) = .trap .indirectCallTypeMismatch) := by
  refine ⟨fun hlen => ?_, fun r hr hnf => ?_, fun f fi hf hfi hne => ?_⟩
  · have : tb[i.toNat]? = none := List.getElem?_eq_none_iff.mpr hlen
    simp only [step, hi, Res.bind_ok, htb, this]
  · cases r with
    | func f => exact absurd rfl (hnf f)
    | null => simp only [step, hi, Res.bind_ok, htb, hr]
    | extern a => simp only [step, hi, Res.bind_ok, htb, hr]
  · simp only [step, hi, Res.bind_ok, htb, hf, hfi, hw, if_neg hne]

/-- a table with a function of the right type, one of another type and an empty slot -/
def exIndirect (i : Nat) : Res (Option Nat) :=
  let s : VM := { rf := (RegFile.empty.saveOffsets fun _ => 1), locals := [], pc := 0, labels := [⟨false, 0, 0⟩],
                  retRegs := [], memPtr := none,
                  inst := { mem := none, memGen := 0, globals := [], tables := [[.func 0, .func 1, .null]], datas := [] } }
  match s.rf.set .i32 0 (BitVec.ofNat 32 i : BitVec 32) with
  | .ok rf =>
    match step Sample.host Sample.prog 9 { s with rf := rf } (.callIndirect 0 0 0 [] []) with
    | .ok (.yield (.invoke f _ _) _) => .ok (some f)
    | .ok _ => .ok none
    | .trap e => .trap e
    | .panic => .panic
    | .ub => .ub
  | _ => .ub

example : exIndirect 0 = .ok (some 0) ∧ exIndirect 1 = .trap .indirectCallTypeMismatch ∧ exIndirect 2 = .panic ∧
    exIndirect 3 = .panic := by decide +kernel

end Verif.Props
