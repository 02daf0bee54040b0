import Verif.Lemmas.Sym
/-
Single operators of symbolic code: the instruction computes what the operator means.
-/
namespace Verif.Lemmas
open Verif.Model Verif.Spec Verif.Props

/-- value of a stack entry -/
def rd (vm : VM) (x : SOp) : Res Val := (vm.read x.cls x.o).bind fun v => .ok ⟨x.cls, v⟩

theorem rd_ok {vm : VM} {c : Cls} {o : Opnd c} {v : Val} (h : rd vm ⟨c, o⟩ = .ok v) :
    ∃ a, v = ⟨c, a⟩ ∧ vm.read c o = .ok a := by
  simp only [rd] at h
  cases hr : vm.read c o with
  | ok a => rw [hr] at h; simp only [Res.bind, Res.ok_inj] at h; exact ⟨a, h.symm, rfl⟩
  | trap e => rw [hr] at h; cases h
  | panic => rw [hr] at h; cases h
  | ub => rw [hr] at h; cases h

theorem rd_reg (vm : VM) (r : Reg) : rd vm (SOp.ofReg r) = vm.rf.getVal r := rfl

theorem rds_nil {vm : VM} {vs : List Val} (h : ([] : List SOp).map (rd vm) = vs.map .ok) : vs = [] := by
  cases vs with
  | nil => rfl
  | cons v vs => simp at h

theorem rds_cons {vm : VM} {c : Cls} {o : Opnd c} {r : List SOp} {vs : List Val}
    (h : ((⟨c, o⟩ : SOp) :: r).map (rd vm) = vs.map .ok) :
    ∃ a vs', vs = ⟨c, a⟩ :: vs' ∧ vm.read c o = .ok a ∧ r.map (rd vm) = vs'.map .ok := by
  cases vs with
  | nil => simp at h
  | cons v vs =>
    simp only [List.map_cons, List.cons.injEq] at h
    obtain ⟨a, rfl, ha⟩ := rd_ok h.1
    exact ⟨a, vs, rfl, ha, h.2⟩

theorem rds_append {vm : VM} {a b : List SOp} {vs : List Val} (h : (a ++ b).map (rd vm) = vs.map .ok) :
    ∃ va vb, vs = va ++ vb ∧ a.map (rd vm) = va.map .ok ∧ b.map (rd vm) = vb.map .ok := by
  refine ⟨vs.take a.length, vs.drop a.length, (List.take_append_drop _ _).symm, ?_, ?_⟩
  · rw [List.map_take, ← h]; simp
  · rw [List.map_drop, ← h]; simp

theorem rds_length {vm : VM} {os : List SOp} {vs : List Val} (h : os.map (rd vm) = vs.map .ok) : vs.length = os.length := by
  have := congrArg List.length h; simpa using this.symm

theorem rds_cls {vm : VM} {os : List SOp} {vs : List Val} (h : os.map (rd vm) = vs.map .ok) :
    vs.map (·.cls) = os.map (·.cls) := by
  induction os generalizing vs with
  | nil => rw [rds_nil h]; rfl
  | cons x os ih =>
    obtain ⟨c, o⟩ := x
    obtain ⟨a, vs', rfl, _, h'⟩ := rds_cons h
    simp [ih h']

@[simp] theorem popV_cons (c : Cls) (a : c.Carrier) (r : List Val) : popV c (⟨c, a⟩ :: r) = some (a, r) := by
  simp [popV]

/-- outcome of a failure -/
def _root_.Verif.Spec.Fail.res {α : Type} : Fail → Res α
  | .trap e => .trap e
  | .panic => .panic
  | .ub => .ub

/-- the part of the instance the source semantics sees -/
def _root_.Verif.Model.Inst.store (i : Inst) : Store := ⟨i.mem, i.globals, i.tables, i.datas⟩

/-- what single operators need to know about the machine -/
structure Here {W : Type} (K : FnCtx) (vm : VM) (s : SSt W) : Prop where
  locals : vm.locals = s.locals
  ltys : s.locals.map (·.cls) = localTypes K.params K.locals
  store : vm.inst.store = s.st
  ptr : vm.memPtr = vm.inst.ptr
  gtys : s.st.globals.map (·.value.cls) = K.M.globals

theorem Val.as_self (v : Val) : v.as v.cls = v.v := by simp [Val.as]

theorem as_eq {v : Val} {c : Cls} (h : v.cls = c) : (⟨c, v.as c⟩ : Val) = v := by
  subst h; rw [Val.as_self]

theorem Here.local {W : Type} {K : FnCtx} {vm : VM} {s : SSt W} (h : Here K vm s) {i : Nat} {c : Cls}
    (hi : FnCtx.lty K i = some c) : ∃ v, s.locals[i]? = some v ∧ vm.locals[i]? = some v ∧ v.cls = c := by
  have := h.ltys
  rw [FnCtx.lty, ← h.ltys, List.getElem?_map] at hi
  cases hv : s.locals[i]? with
  | none => rw [hv] at hi; simp at hi
  | some v => rw [hv] at hi; simp at hi; exact ⟨v, rfl, by rw [h.locals, hv], hi⟩

theorem Here.global {W : Type} {K : FnCtx} {vm : VM} {s : SSt W} (h : Here K vm s) {g : Nat} {c : Cls}
    (hg : K.M.globals[g]? = some c) :
    ∃ gl, s.st.globals[g]? = some gl ∧ vm.inst.globals[g]? = some gl ∧ gl.value.cls = c := by
  rw [← h.gtys, List.getElem?_map] at hg
  cases hv : s.st.globals[g]? with
  | none => rw [hv] at hg; simp at hg
  | some v =>
    rw [hv] at hg; simp at hg
    refine ⟨v, rfl, ?_, hg⟩
    rw [← h.store] at hv
    exact hv

theorem Here.mem {W : Type} {K : FnCtx} {vm : VM} {s : SSt W} (h : Here K vm s) : s.st.mem = vm.inst.mem := by
  rw [← h.store]; rfl

theorem Here.tables {W : Type} {K : FnCtx} {vm : VM} {s : SSt W} (h : Here K vm s) : s.st.tables = vm.inst.tables := by
  rw [← h.store]; rfl

theorem Here.datas {W : Type} {K : FnCtx} {vm : VM} {s : SSt W} (h : Here K vm s) : s.st.datas = vm.inst.datas := by
  rw [← h.store]; rfl

theorem Here.rawMem {W : Type} {K : FnCtx} {vm : VM} {s : SSt W} (h : Here K vm s) :
    vm.rawMem = match s.st.mem with | some m => .ok m | none => .ub := by
  simp only [VM.rawMem, h.mem, h.ptr, Inst.ptr]
  cases vm.inst.mem <;> simp

/-- outcome of an operator with a result against its instruction -/
inductive ValOut {W : Type} (K : FnCtx) (s : SSt W) (vm : VM) (rs : List Val) (d : Dst) (dc : Cls) :
    Res (List Val × SSt W) → Res Out → Prop
  | ok {v : dc.Carrier} {s' : SSt W} {vm' : VM} : s'.locals = s.locals → s'.world = s.world → Here K vm' s' →
      vm'.rf = vm.rf → vm'.pc = vm.pc → vm'.labels = vm.labels → vm'.retRegs = vm.retRegs →
      ValOut K s vm rs d dc (.ok (⟨dc, v⟩ :: rs, s')) (vm'.write dc d v >>= fun x => pure (.cont x.next))
  | fail (f : Fail) : ValOut K s vm rs d dc f.res f.res

theorem ValOut.push {W : Type} {K : FnCtx} {s : SSt W} {vm : VM} {rs : List Val} {d : Dst} {dc : Cls} {x : Res dc.Carrier}
    {y : Res Out} (h : Here K vm s) (hy : y = x >>= fun v => vm.write dc d v >>= fun x => pure (.cont x.next)) :
    ValOut K s vm rs d dc (push dc x rs s) y := by
  subst hy
  cases x with
  | ok v => exact .ok rfl rfl h rfl rfl rfl rfl
  | trap e => exact .fail (.trap e)
  | panic => exact .fail .panic
  | ub => exact .fail .ub

theorem opI_sem {W : Type} {K : FnCtx} {o : WOp} {args : List SOp} {d : Dst} {dc : Cls} {i : Instr} (h : OpI K o args d dc i)
    (H : FloatHost) (P : Prog) (len : Nat) {vm : VM} {s : SSt W} {vals rs : List Val} (hh : Here K vm s)
    (hr : args.map (rd vm) = vals.map .ok) :
    ∃ x, opSem H o (vals ++ rs) s = some x ∧ ValOut K s vm rs d dc x (step H P len vm i) := by
  cases h with
  | globalGet hg =>
    obtain ⟨gl, h1, h2, h3⟩ := hh.global hg
    cases rds_nil hr
    refine ⟨.ok (gl.value :: rs, s), by simp [opSem, h1], ?_⟩
    rw [← as_eq h3]
    simp only [step, h2]
    exact .ok rfl rfl hh rfl rfl rfl rfl
  | const =>
    cases rds_nil hr
    exact ⟨_, rfl, .ok rfl rfl hh rfl rfl rfl rfl⟩
  | localGet hi =>
    cases rds_nil hr
    obtain ⟨v, h1, h2, h3⟩ := hh.local hi
    refine ⟨.ok (v :: rs, s), by simp [opSem, h1], ?_⟩
    rw [← as_eq h3]
    simp only [step, VM.read, h2, Res.bind_ok, Op1.eval]
    exact .ok rfl rfl hh rfl rfl rfl rfl
  | un =>
    obtain ⟨a, vs, rfl, ha, hr⟩ := rds_cons hr
    cases rds_nil hr
    exact ⟨_, by simp [opSem]; rfl, .push hh (by simp only [step, ha, Res.bind_ok])⟩
  | bin =>
    obtain ⟨b, vs, rfl, hb, hr⟩ := rds_cons hr
    obtain ⟨a, vs, rfl, ha, hr⟩ := rds_cons hr
    cases rds_nil hr
    exact ⟨_, by simp [opSem]; rfl, .push hh (by simp only [step, ha, hb, Res.bind_ok])⟩
  | load =>
    obtain ⟨a, vs, rfl, ha, hr⟩ := rds_cons hr
    cases rds_nil hr
    refine ⟨_, by simp [opSem]; rfl, ?_⟩
    simp only [step, ha, Res.bind_ok, hh.rawMem, onMem]
    cases s.st.mem with
    | none => exact .fail .ub
    | some m => exact .push hh rfl
  | memSize =>
    cases rds_nil hr
    refine ⟨_, rfl, ?_⟩
    simp only [step, VM.mem0, onMem, hh.mem]
    cases vm.inst.mem with
    | none => exact .fail (.trap _)
    | some m =>
      refine .push hh ?_
      simp only [Res.bind_ok, VM.write]
      cases vm.rf.set .i32 _ _ <;> rfl
  | memGrow =>
    rename_i ar d
    obtain ⟨a, vs, rfl, ha, hr⟩ := rds_cons hr
    cases rds_nil hr
    refine ⟨_, by simp [opSem]; rfl, ?_⟩
    simp only [step, VM.mem0, onMem, hh.mem]
    cases hm : vm.inst.mem with
    | none => exact .fail (.trap _)
    | some m =>
      simp only [VM.read] at ha
      simp only [Res.bind_ok, ha]
      cases hg : m.growInstr a with
      | trap e => exact .fail (.trap e)
      | panic => exact .fail .panic
      | ub => exact .fail .ub
      | ok x =>
        obtain ⟨x, m'⟩ := x
        simp only [Res.bind_ok, push, Res.bind]
        have key : ValOut K s vm rs (.reg d) .i32 (.ok (⟨.i32, x⟩ :: rs, s.setMem m')) _ :=
          .ok (vm' := { vm with inst := { vm.inst with mem := some m', memGen := vm.inst.memGen + 1 },
                                memPtr := some (vm.inst.memGen + 1) }) (d := .reg d) rfl rfl
            ⟨hh.locals, hh.ltys, by rw [SSt.setMem, ← hh.store]; rfl, by simp [Inst.ptr], hh.gtys⟩ rfl rfl rfl rfl
        refine (congrArg (ValOut K s vm rs _ .i32 _) ?_).mp key
        simp only [VM.write]
        cases vm.rf.set .i32 _ _ <;> rfl
  | select =>
    rename_i _ _ _ d
    obtain ⟨x, vs, rfl, hx, hr⟩ := rds_cons hr
    obtain ⟨b, vs, rfl, hb, hr⟩ := rds_cons hr
    obtain ⟨a, vs, rfl, ha, hr⟩ := rds_cons hr
    cases rds_nil hr
    simp only [VM.read] at hx ha hb
    refine ⟨.ok (⟨dc, if x ≠ (0 : BitVec 32) then a else b⟩ :: rs, s), ?_, ?_⟩
    · simp only [opSem, List.cons_append, popV_cons, List.nil_append]
      split <;> rfl
    · have key : ValOut K s vm rs (.reg d) dc (.ok (⟨dc, if x ≠ (0 : BitVec 32) then a else b⟩ :: rs, s)) _ :=
        .ok (vm' := vm) (d := .reg d) rfl rfl hh rfl rfl rfl rfl
      refine (congrArg (ValOut K s vm rs _ dc _) ?_).mp key
      simp only [step, hx, Res.bind_ok, VM.write]
      split <;> simp only [ha, hb, Res.bind_ok] <;> cases vm.rf.set dc _ _ <;> rfl
  | selectT =>
    rename_i _ _ _ d
    obtain ⟨x, vs, rfl, hx, hr⟩ := rds_cons hr
    obtain ⟨b, vs, rfl, hb, hr⟩ := rds_cons hr
    obtain ⟨a, vs, rfl, ha, hr⟩ := rds_cons hr
    cases rds_nil hr
    simp only [VM.read] at hx ha hb
    refine ⟨.ok (⟨dc, if x ≠ (0 : BitVec 32) then a else b⟩ :: rs, s), ?_, ?_⟩
    · simp only [opSem, List.cons_append, popV_cons, List.nil_append]
      split <;> rfl
    · have key : ValOut K s vm rs (.reg d) dc (.ok (⟨dc, if x ≠ (0 : BitVec 32) then a else b⟩ :: rs, s)) _ :=
        .ok (vm' := vm) (d := .reg d) rfl rfl hh rfl rfl rfl rfl
      refine (congrArg (ValOut K s vm rs _ dc _) ?_).mp key
      simp only [step, hx, Res.bind_ok, VM.write]
      split <;> simp only [ha, hb, Res.bind_ok] <;> cases vm.rf.set dc _ _ <;> rfl
  | refNull =>
    rename_i d
    cases rds_nil hr
    refine ⟨_, rfl, ?_⟩
    have key : ValOut K s vm rs (.reg d) .ref (.ok (⟨.ref, Ref.null⟩ :: rs, s)) _ :=
      .ok (vm' := vm) (d := .reg d) rfl rfl hh rfl rfl rfl rfl
    refine (congrArg (ValOut K s vm rs _ .ref _) ?_).mp key
    simp only [step, VM.write]
    cases vm.rf.set .ref _ _ <;> rfl
  | refIsNull =>
    rename_i _ d
    obtain ⟨x, vs, rfl, hx, hr⟩ := rds_cons hr
    cases rds_nil hr
    simp only [VM.read] at hx
    refine ⟨_, by simp [opSem]; rfl, ?_⟩
    have key : ValOut K s vm rs (.reg d) .i32
        (.ok (⟨.i32, if x = Ref.null then (1 : BitVec 32) else (0 : BitVec 32)⟩ :: rs, s)) _ :=
      .ok (vm' := vm) (d := .reg d) rfl rfl hh rfl rfl rfl rfl
    refine (congrArg (ValOut K s vm rs _ .i32 _) ?_).mp key
    simp only [step, VM.write, hx, Res.bind_ok]
    cases vm.rf.set .i32 _ _ <;> rfl
  | tableGet =>
    rename_i t a d
    obtain ⟨x, vs, rfl, hx, hr⟩ := rds_cons hr
    cases rds_nil hr
    simp only [VM.read] at hx
    simp only [opSem, List.cons_append, popV_cons, List.nil_append, hh.tables, step]
    cases vm.inst.tables[t]? with
    | none => exact ⟨_, rfl, .fail (.trap _)⟩
    | some tb =>
      simp only [hx, Res.bind_ok]
      cases tb[BitVec.toNat (w := 32) x]? with
      | none => exact ⟨_, rfl, .fail .panic⟩
      | some r =>
        refine ⟨_, rfl, ?_⟩
        have key : ValOut K s vm rs (.reg d) .ref (.ok (⟨.ref, r⟩ :: rs, s)) _ :=
          .ok (vm' := vm) (d := .reg d) rfl rfl hh rfl rfl rfl rfl
        refine (congrArg (ValOut K s vm rs _ .ref _) ?_).mp key
        simp only [VM.write]
        cases vm.rf.set .ref _ _ <;> rfl
  | refLocalGet hi =>
    rename_i _ d
    cases rds_nil hr
    obtain ⟨v, h1, h2, h3⟩ := hh.local hi
    obtain ⟨vc, vv⟩ := v
    simp only at h3
    subst h3
    refine ⟨.ok (⟨.ref, vv⟩ :: rs, s), by simp [opSem, h1], ?_⟩
    have key : ValOut K s vm rs (.reg d) .ref (.ok (⟨.ref, vv⟩ :: rs, s)) _ :=
      .ok (vm' := vm) (d := .reg d) rfl rfl hh rfl rfl rfl rfl
    refine (congrArg (ValOut K s vm rs _ .ref _) ?_).mp key
    simp only [VM.write, step, h2, dif_pos]
    cases vm.rf.set .ref _ _ <;> rfl

/-- outcome of an operator without a new result -/
inductive EffOut {W : Type} (K : FnCtx) (s : SSt W) (vm : VM) (rs : List Val) : Res (List Val × SSt W) → Res Out → Prop
  | ok {s' : SSt W} {vm' : VM} : s'.world = s.world → Here K vm' s' → vm'.rf = vm.rf → vm'.pc = vm.pc + 1 →
      vm'.labels = vm.labels → vm'.retRegs = vm.retRegs → EffOut K s vm rs (.ok (rs, s')) (.ok (.cont vm'))
  | fail (f : Fail) : EffOut K s vm rs f.res f.res

theorem Here.next {W : Type} {K : FnCtx} {vm : VM} {s : SSt W} (h : Here K vm s) : Here K vm.next s :=
  ⟨h.locals, h.ltys, h.store, h.ptr, h.gtys⟩

theorem Here.setLocal {W : Type} {K : FnCtx} {vm : VM} {s : SSt W} (h : Here K vm s) {i : Nat} {v : Val}
    (hi : FnCtx.lty K i = some v.cls) :
    Here K { vm with locals := vm.locals.set i v } { s with locals := s.locals.set i v } := by
  refine ⟨by rw [h.locals], ?_, h.store, h.ptr, h.gtys⟩
  rw [← h.ltys, List.map_set]
  apply List.ext_getElem?
  intro j
  rw [List.getElem?_set]
  split
  · rename_i e
    subst e
    rw [FnCtx.lty, ← h.ltys] at hi
    split
    · exact hi.symm
    · rename_i hn
      rw [List.getElem?_eq_none (by omega)] at hi; cases hi
  · rfl

theorem Here.setMem {W : Type} {K : FnCtx} {vm : VM} {s : SSt W} (h : Here K vm s) {m : Mem} (hm : vm.inst.mem ≠ none) :
    Here K (vm.setMem m) (s.setMem m) := by
  refine ⟨h.locals, h.ltys, by rw [SSt.setMem, ← h.store]; rfl, ?_, h.gtys⟩
  simp only [VM.setMem, h.ptr, Inst.ptr]
  cases hx : vm.inst.mem with
  | none => exact absurd hx hm
  | some _ => rfl

theorem EffOut.mem {W : Type} {K : FnCtx} {s : SSt W} {vm : VM} {rs : List Val} {x : Res Mem} (h : Here K vm s)
    (hm : vm.inst.mem ≠ none) :
    EffOut K s vm rs (x.bind fun m => .ok (rs, s.setMem m)) (x >>= fun m => pure (.cont (vm.setMem m).next)) := by
  cases x with
  | ok m => exact .ok rfl (h.setMem hm).next rfl rfl rfl rfl
  | trap e => exact .fail (.trap e)
  | panic => exact .fail .panic
  | ub => exact .fail .ub

theorem numeric_ty {c : Cls} (h : numeric c = true) (v : c.Carrier) (w : Val) (hw : w.cls = c) : w.ty = Val.ty ⟨c, v⟩ := by
  obtain ⟨wc, wv⟩ := w
  simp only at hw
  subst hw
  cases wc <;> simp [numeric] at h <;> rfl

theorem opE_sem {W : Type} {K : FnCtx} {o : WOp} {args keep : List SOp} {i : Instr} (h : OpE K o args keep i)
    (H : FloatHost) (P : Prog) (len : Nat) {vm : VM} {s : SSt W} {vals rs : List Val} (hh : Here K vm s)
    (hr : args.map (rd vm) = vals.map .ok) :
    ∃ x kv, opSem H o (vals ++ rs) s = some x ∧ EffOut K s vm (kv ++ rs) x (step H P len vm i) ∧
      keep.map (rd vm) = kv.map .ok := by
  cases h with
  | localSet hi =>
    obtain ⟨a, vs, rfl, ha, hr⟩ := rds_cons hr
    cases rds_nil hr
    obtain ⟨v, h1, h2, h3⟩ := hh.local hi
    have hlt := (List.getElem?_eq_some_iff.1 h2).1
    refine ⟨_, [], rfl, ?_, rfl⟩
    simp only [step, ha, Res.bind_ok, Op1.eval, VM.write, hlt, if_true, Res.pure_eq]
    exact .ok rfl (hh.setLocal (v := ⟨_, a⟩) hi).next rfl rfl rfl rfl
  | localSetRef hi =>
    obtain ⟨a, vs, rfl, ha, hr⟩ := rds_cons hr
    cases rds_nil hr
    obtain ⟨v, h1, h2, h3⟩ := hh.local hi
    have hlt := (List.getElem?_eq_some_iff.1 h2).1
    simp only [VM.read] at ha
    refine ⟨_, [], rfl, ?_, rfl⟩
    simp only [step, ha, Res.bind_ok, VM.write, hlt, if_true, Res.pure_eq]
    exact .ok rfl (hh.setLocal (v := ⟨.ref, a⟩) hi).next rfl rfl rfl rfl
  | localTee hi =>
    obtain ⟨a, vs, rfl, ha, hr'⟩ := rds_cons hr
    cases rds_nil hr'
    obtain ⟨v, h1, h2, h3⟩ := hh.local hi
    have hlt := (List.getElem?_eq_some_iff.1 h2).1
    refine ⟨_, [⟨_, a⟩], rfl, ?_, hr⟩
    simp only [step, ha, Res.bind_ok, Op1.eval, VM.write, hlt, if_true, Res.pure_eq]
    exact .ok rfl (hh.setLocal (v := ⟨_, a⟩) hi).next rfl rfl rfl rfl
  | localTeeRef hi =>
    obtain ⟨a, vs, rfl, ha, hr'⟩ := rds_cons hr
    cases rds_nil hr'
    obtain ⟨v, h1, h2, h3⟩ := hh.local hi
    have hlt := (List.getElem?_eq_some_iff.1 h2).1
    simp only [VM.read] at ha
    refine ⟨_, [⟨.ref, a⟩], rfl, ?_, hr⟩
    simp only [step, ha, Res.bind_ok, VM.write, hlt, if_true, Res.pure_eq]
    exact .ok rfl (hh.setLocal (v := ⟨.ref, a⟩) hi).next rfl rfl rfl rfl
  | globalSet hg hn =>
    rename_i g x c
    obtain ⟨a, vs, rfl, ha, hr⟩ := rds_cons hr
    cases rds_nil hr
    obtain ⟨gl, h1, h2, h3⟩ := hh.global hg
    refine ⟨.ok (rs, { s with st := { s.st with globals := s.st.globals.set g { gl with value := ⟨c, a⟩ } } }), [],
      by simp [opSem, h1], ?_, rfl⟩
    simp only [VM.read] at ha
    simp only [step, VM.read, ha, Res.bind_ok, setGlobal, h2, numeric_ty hn a _ h3, if_true, Res.pure_eq]
    refine .ok rfl ⟨hh.locals, hh.ltys, ?_, hh.ptr, ?_⟩ rfl rfl rfl rfl
    · rw [← hh.store]; rfl
    · rw [← hh.gtys, List.map_set]
      apply List.ext_getElem?
      intro j
      rw [List.getElem?_set]
      split
      · rename_i e
        subst e
        rw [List.getElem?_map, h1]
        simp [h3]
        exact (List.getElem?_eq_some_iff.1 h1).1
      · rfl
  | store =>
    obtain ⟨x, vs, rfl, hx, hr⟩ := rds_cons hr
    obtain ⟨a, vs, rfl, ha, hr⟩ := rds_cons hr
    cases rds_nil hr
    simp only [VM.read] at hx
    refine ⟨_, [], by simp [opSem]; rfl, ?_, rfl⟩
    simp only [step, ha, hx, Res.bind_ok, hh.rawMem, onMem, hh.mem]
    cases hm : vm.inst.mem with
    | none => exact .fail .ub
    | some m => exact .mem hh (by simp [hm])
  | memCopy =>
    obtain ⟨n, vs, rfl, hn, hr⟩ := rds_cons hr
    obtain ⟨b, vs, rfl, hb, hr⟩ := rds_cons hr
    obtain ⟨a, vs, rfl, ha, hr⟩ := rds_cons hr
    cases rds_nil hr
    simp only [VM.read] at hn hb ha
    refine ⟨_, [], by simp [opSem, pop3]; rfl, ?_, rfl⟩
    simp only [step, VM.mem0, onMem, hh.mem]
    cases hm : vm.inst.mem with
    | none => exact .fail (.trap _)
    | some m =>
      simp only [Res.bind_ok, hn, hb, ha]
      exact .mem hh (by simp [hm])
  | memInit =>
    rename_i k _ _ _
    obtain ⟨n, vs, rfl, hn, hr⟩ := rds_cons hr
    obtain ⟨b, vs, rfl, hb, hr⟩ := rds_cons hr
    obtain ⟨a, vs, rfl, ha, hr⟩ := rds_cons hr
    cases rds_nil hr
    simp only [VM.read] at hn hb ha
    refine ⟨_, [], by simp [opSem, pop3]; rfl, ?_, rfl⟩
    simp only [step, VM.mem0, onMem, hh.mem, hh.datas]
    cases hm : vm.inst.mem with
    | none => exact .fail (.trap _)
    | some m =>
      simp only [Res.bind_ok]
      cases vm.inst.datas[k]? with
      | none => exact .fail (.trap _)
      | some seg =>
        simp only [hn, hb, ha, Res.bind_ok]
        exact .mem hh (by simp [hm])
  | memFill =>
    obtain ⟨n, vs, rfl, hn, hr⟩ := rds_cons hr
    obtain ⟨b, vs, rfl, hb, hr⟩ := rds_cons hr
    obtain ⟨a, vs, rfl, ha, hr⟩ := rds_cons hr
    cases rds_nil hr
    simp only [VM.read] at hn hb ha
    refine ⟨_, [], by simp [opSem, pop3]; rfl, ?_, rfl⟩
    simp only [step, VM.mem0, onMem, hh.mem]
    cases hm : vm.inst.mem with
    | none => exact .fail (.trap _)
    | some m =>
      simp only [Res.bind_ok, hn, hb, ha]
      exact .mem hh (by simp [hm])
  | dataDrop =>
    cases rds_nil hr
    refine ⟨_, [], rfl, ?_, rfl⟩
    simp only [step]
    exact .ok rfl ⟨hh.locals, hh.ltys, by rw [← hh.store]; rfl, hh.ptr, hh.gtys⟩ rfl rfl rfl rfl
  | tableSet =>
    rename_i t i x
    obtain ⟨a, vs, rfl, ha, hr⟩ := rds_cons hr
    obtain ⟨j, vs, rfl, hj, hr⟩ := rds_cons hr
    cases rds_nil hr
    simp only [VM.read] at ha hj
    simp only [opSem, List.cons_append, popV_cons, List.nil_append, hh.tables, step]
    cases vm.inst.tables[t]? with
    | none => exact ⟨_, [], rfl, .fail (.trap _), rfl⟩
    | some tb =>
      simp only [ha, hj, Res.bind_ok]
      split
      · refine ⟨_, [], rfl, ?_, rfl⟩
        exact .ok rfl ⟨hh.locals, hh.ltys, by rw [← hh.store]; rfl, hh.ptr, hh.gtys⟩ rfl rfl rfl rfl
      · exact ⟨_, [], rfl, .fail .panic, rfl⟩
  | tableFill =>
    rename_i t i x n
    obtain ⟨k, vs, rfl, hk, hr⟩ := rds_cons hr
    obtain ⟨a, vs, rfl, ha, hr⟩ := rds_cons hr
    obtain ⟨j, vs, rfl, hj, hr⟩ := rds_cons hr
    cases rds_nil hr
    simp only [VM.read] at ha hj hk
    simp only [opSem, List.cons_append, popV_cons, List.nil_append, hh.tables, step]
    cases vm.inst.tables[t]? with
    | none => exact ⟨_, [], rfl, .fail (.trap _), rfl⟩
    | some tb =>
      simp only [ha, hj, hk, Res.bind_ok]
      cases fillTable tb j a k with
      | trap e => exact ⟨_, [], rfl, .fail (.trap e), rfl⟩
      | panic => exact ⟨_, [], rfl, .fail .panic, rfl⟩
      | ub => exact ⟨_, [], rfl, .fail .ub, rfl⟩
      | ok tb' =>
        refine ⟨_, [], rfl, ?_, rfl⟩
        exact .ok rfl ⟨hh.locals, hh.ltys, by rw [← hh.store]; rfl, hh.ptr, hh.gtys⟩ rfl rfl rfl rfl

end Verif.Lemmas
