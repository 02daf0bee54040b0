import Verif.Lemmas.ExecL
import Verif.Lemmas.SymStep
/-
The machine while it runs symbolic code.
-/
namespace Verif.Lemmas
open Verif.Model Verif.Spec Verif.Props

/-- one activation of a compiled function -/
structure Cx (S : Wasi) where
  E : Env
  Q : SProg
  K : FnCtx
  body : List Instr
  W : Cls → Nat
  f : Nat
  callers : List Frame
  low : RegFile

variable {S : Wasi}

/-- the offsets in use are those of the topmost frame -/
def LowOk (low : RegFile) : Prop := low.cached = match low.frames with | [] => fun _ => 0 | o :: _ => o

/-- the register window of the activation, on top of the registers of its callers -/
structure Win (low : RegFile) (W : Cls → Nat) (rf : RegFile) : Prop where
  len : ∀ c, (rf.regs c).length = (low.regs c).length + W c
  keep : ∀ c, (rf.regs c).take (low.regs c).length = low.regs c
  cached : rf.cached = fun c => (low.regs c).length
  frames : rf.frames = (fun c => (low.regs c).length) :: low.frames

theorem Win.get_ok {low : RegFile} {W : Cls → Nat} {rf : RegFile} (h : Win low W rf) {c : Cls} {i : Nat} (hi : i < W c) :
    ∃ v, rf.get c i = .ok v := by
  have hl := h.len c
  have hlt : rf.cached c + i < (rf.regs c).length := by rw [h.cached]; simp only; omega
  exact ⟨(rf.regs c)[rf.cached c + i], by simp only [RegFile.get, List.getElem?_eq_getElem hlt]⟩

theorem Win.set_ok {low : RegFile} {W : Cls → Nat} {rf : RegFile} (h : Win low W rf) {c : Cls} {i : Nat} (hi : i < W c)
    (v : c.Carrier) : ∃ rf', rf.set c i v = .ok rf' := by
  obtain ⟨w, hw⟩ := h.get_ok hi
  exact set_ok_of_get hw v

theorem Win.set {low : RegFile} {W : Cls → Nat} {rf rf' : RegFile} (h : Win low W rf) {c : Cls} {i : Nat} {v : c.Carrier}
    (hs : rf.set c i v = .ok rf') : Win low W rf' := by
  unfold RegFile.set at hs
  split at hs
  · rename_i hlt
    cases hs
    refine ⟨fun d => ?_, fun d => ?_, h.cached, h.frames⟩
    · by_cases hd : d = c
      · subst hd; simp only [upd_same, List.length_set]; exact h.len d
      · simp only [upd_ne _ _ _ _ hd]; exact h.len d
    · by_cases hd : d = c
      · subst hd
        simp only [upd_same]
        rw [List.take_set_of_le (by rw [h.cached]; simp only; omega)]
        exact h.keep d
      · simp only [upd_ne _ _ _ _ hd]; exact h.keep d
  · cases hs

theorem Win.copyReg {low : RegFile} {W : Cls → Nat} {rf rf' : RegFile} (h : Win low W rf) {a b : Reg}
    (hs : rf.copyReg a b = .ok rf') : Win low W rf' := by
  unfold RegFile.copyReg at hs
  split at hs
  · simp only [Res.bind_eq_ok] at hs
    obtain ⟨v, _, hs⟩ := hs
    exact h.set hs
  · cases hs; exact h

theorem Win.copyRegs {low : RegFile} {W : Cls → Nat} : ∀ {as bs : List Reg} {rf rf' : RegFile}, Win low W rf →
    rf.copyRegs as bs = .ok rf' → Win low W rf'
  | [], _, rf, rf', h, hs => by simp only [RegFile.copyRegs, Res.ok_inj] at hs; subst hs; exact h
  | _ :: _, [], rf, rf', h, hs => by simp only [RegFile.copyRegs, Res.ok_inj] at hs; subst hs; exact h
  | a :: as, b :: bs, rf, rf', h, hs => by
    simp only [RegFile.copyRegs, Res.bind_eq_ok] at hs
    obtain ⟨r1, h1, h2⟩ := hs
    exact (h.copyReg h1).copyRegs h2

theorem Win.setVal {low : RegFile} {W : Cls → Nat} {rf rf' : RegFile} (h : Win low W rf) {x : Reg} {v : Val}
    (hs : rf.setVal x v = .ok rf') : Win low W rf' := by
  unfold RegFile.setVal at hs
  split at hs
  · cases hs; exact h
  · split at hs
    · exact h.set hs
    · cases hs; exact h
  · split at hs
    · exact h.set hs
    · exact h.set hs

theorem Win.setVals {low : RegFile} {W : Cls → Nat} : ∀ {xs : List Reg} {vs : List Val} {rf rf' : RegFile}, Win low W rf →
    rf.setVals xs vs = .ok rf' → Win low W rf'
  | [], _, rf, rf', h, hs => by simp only [RegFile.setVals, Res.ok_inj] at hs; subst hs; exact h
  | _ :: _, [], rf, rf', h, hs => by simp only [RegFile.setVals, Res.ok_inj] at hs; subst hs; exact h
  | a :: as, b :: bs, rf, rf', h, hs => by
    simp only [RegFile.setVals, Res.bind_eq_ok] at hs
    obtain ⟨r1, h1, h2⟩ := hs
    exact (h.setVal h1).setVals h2

theorem setVal_ok {low : RegFile} {W : Cls → Nat} {rf : RegFile} (h : Win low W rf) {x : Reg} (hx : x.idx < W x.cls)
    (v : Val) : ∃ rf', rf.setVal x v = .ok rf' := by
  obtain ⟨c, i⟩ := x
  simp only at hx
  cases c <;> simp only [RegFile.setVal]
  case v128 => exact ⟨_, rfl⟩
  case ref =>
    split
    · exact h.set_ok hx _
    · exact ⟨_, rfl⟩
  all_goals
    split
    · exact h.set_ok hx _
    · exact h.set_ok hx _

theorem setVals_ok {low : RegFile} {W : Cls → Nat} : ∀ {xs : List Reg} {vs : List Val} {rf : RegFile}, Win low W rf →
    (∀ x ∈ xs, x.idx < W x.cls) → ∃ rf', rf.setVals xs vs = .ok rf'
  | [], _, rf, _, _ => ⟨rf, rfl⟩
  | _ :: _, [], rf, _, _ => ⟨rf, rfl⟩
  | x :: xs, v :: vs, rf, h, hx => by
    obtain ⟨r1, h1⟩ := setVal_ok h (hx x (by simp)) v
    obtain ⟨r2, h2⟩ := setVals_ok (xs := xs) (vs := vs) (h.setVal h1) (fun y hy => hx y (by simp [hy]))
    exact ⟨r2, by simp only [RegFile.setVals, h1, Res.bind_ok, h2]⟩

theorem Win.restore {low : RegFile} {W : Cls → Nat} {rf : RegFile} (h : Win low W rf) (hl : LowOk low) :
    rf.restoreOffsets = low := by
  unfold RegFile.restoreOffsets
  rw [h.frames]
  refine RegFile.ext' (fun c => h.keep c) rfl ?_
  rw [hl]
  cases low.frames <;> rfl

theorem Win.lowOk {low : RegFile} {W : Cls → Nat} {rf : RegFile} (h : Win low W rf) : LowOk rf := by
  rw [LowOk, h.frames, h.cached]

theorem Win.enter {low : RegFile} {W : Cls → Nat} : Win low W (low.saveOffsets W) :=
  ⟨fun c => by simp [RegFile.saveOffsets], fun c => by simp [RegFile.saveOffsets], rfl, rfl⟩

/-- the frame on top belongs to this activation -/
def AtF (cx : Cx S) (m : Machine S) : Prop :=
  ∃ fr, m.frames = fr :: cx.callers ∧ fr.func = cx.f ∧ fr.n = cx.K.results.length

/-- the machine is at `pc`, the operand stack `stk` (and below it, one segment per open bracket, `vsegs`) is where the
symbolic operands say, and locals, store and world agree -/
structure Rel (cx : Cx S) (Γ : List Lab) (pc : Nat) (os : List SOp) (stk : List Val) (vsegs : List (List Val))
    (s : SSt S.W) (c : Conf S) : Prop where
  frame : AtF cx c.m
  world : c.m.world = s.world
  pc : c.vm.pc = pc
  labels : c.vm.labels.length = Γ.length + 1
  ret : c.vm.retRegs = []
  here : Here cx.K c.vm s
  win : Win cx.low cx.W c.vm.rf
  os : os.map (rd c.vm) = stk.map .ok
  segs : Γ.map (fun l => l.seg.map (rd c.vm)) = vsegs.map fun v => v.map Res.ok

theorem Rel.seglen {cx : Cx S} {Γ : List Lab} {pc : Nat} {os : List SOp} {stk : List Val} {vsegs : List (List Val)}
    {s : SSt S.W} {c : Conf S} (h : Rel cx Γ pc os stk vsegs s c) : vsegs.length = Γ.length := by
  have := congrArg List.length h.segs; simpa using this.symm

/-- what an activation is started with -/
structure CxOk (cx : Cx S) : Prop where
  body : cx.E.P.body cx.f = cx.body
  H : cx.E.H = cx.Q.H
  low : LowOk cx.low
  cap : cx.K.results.length ≤ 8

/-- the next thing the machine does is return from this activation, with the final state `vm'` -/
inductive Leaves (cx : Cx S) (c : Conf S) : VM → Prop
  | ret {i : Instr} {vm' : VM} : cx.body[c.vm.pc]? = some i →
      step cx.E.H cx.E.P cx.body.length c.vm i = .ok (.yield .ret vm') → Leaves cx c vm'
  | halt : cx.body[c.vm.pc]? = none → c.vm.labels.length ≤ 1 → Leaves cx c c.vm

/-- about to return `vals` -/
structure RetAt (cx : Cx S) (vals : List Val) (st : Store) (w : S.W) (c : Conf S) : Prop where
  out : ∃ vm', Leaves cx c vm' ∧ Win cx.low cx.W vm'.rf ∧ vm'.inst.store = st ∧
    vm'.rf.getVals vm'.retRegs = .ok vals ∧ vm'.retRegs.length = cx.K.results.length
  frame : AtF cx c.m
  world : c.m.world = w
  cls : vals.map (·.cls) = cx.K.results
  gtys : st.globals.map (·.value.cls) = cx.K.M.globals

/-- arrived at a label -/
def BrRel (cx : Cx S) (Γ : List Lab) (vsegs : List (List Val)) (d : Nat) (vs : List Val) (s : SSt S.W) (c : Conf S) : Prop :=
  match Γ[d]?, vsegs[d]? with
  | some l, some vseg =>
    Rel cx (Γ.drop (d + 1)) l.pc (sregs l.dst ++ l.seg) (vs.take l.arity ++ vseg) (vsegs.drop (d + 1)) s c
  | none, none => cx.K.results = [] ∧ Rel cx [] cx.body.length [] [] [] s c
  | _, _ => False

/-- what the machine does for each outcome of the source -/
def Match (cx : Cx S) (Γ : List Lab) (vsegs : List (List Val)) (pc' : Nat) (out : Option (List SOp)) (n : Nat)
    (o : SOut S.W) (c : Conf S) : Prop :=
  match o with
  | .norm vs s => ∃ os j c', out = some os ∧ CPath cx.E j c c' ∧ Rel cx Γ pc' os vs vsegs s c'
  | .br d vs s => ∃ j c', CPath cx.E j c c' ∧ BrRel cx Γ vsegs d vs s c'
  | .ret vs s => ∃ j c', CPath cx.E j c c' ∧ RetAt cx (vs.take cx.K.results.length).reverse s.st s.world c'
  | .fail f st w => ∃ j c' l, CPath cx.E j c c' ∧ CEndL cx.E c' f.res l ∧ l.1.store = st ∧ l.2 = w ∧
    st.globals.map (·.value.cls) = cx.K.M.globals
  | .stuck => False
  | .timeout => ∃ j c', n ≤ j ∧ CPath cx.E j c c'
  | .gap => ∃ j c', CPath cx.E j c c' ∧ CEnd cx.E c' (.trap .executionFailed)

theorem Match.prepend {cx : Cx S} {Γ : List Lab} {vsegs : List (List Val)} {pc' : Nat} {out : Option (List SOp)}
    {n n' j : Nat} {o : SOut S.W} {c c1 : Conf S} (hp : CPath cx.E j c c1) (hn : n' ≤ n + j)
    (h : Match cx Γ vsegs pc' out n o c1) : Match cx Γ vsegs pc' out n' o c := by
  cases o with
  | norm vs s => obtain ⟨os, k, c', h1, h2, h3⟩ := h; exact ⟨os, _, c', h1, hp.append h2, h3⟩
  | br d vs s => obtain ⟨k, c', h2, h3⟩ := h; exact ⟨_, c', hp.append h2, h3⟩
  | ret vs s => obtain ⟨k, c', h2, h3⟩ := h; exact ⟨_, c', hp.append h2, h3⟩
  | fail f st w => obtain ⟨k, c', l, h2, h3⟩ := h; exact ⟨_, c', l, hp.append h2, h3⟩
  | stuck => exact h
  | timeout => obtain ⟨k, c', h2, h3⟩ := h; exact ⟨_, c', by omega, hp.append h3⟩
  | gap => obtain ⟨k, c', h2, h3⟩ := h; exact ⟨_, c', hp.append h2, h3⟩

/-- one instruction that stays in the frame -/
theorem Rel.step {cx : Cx S} (ok : CxOk cx) {c : Conf S} {i : Instr} {vm' : VM} (hf : AtF cx c.m)
    (hi : cx.body[c.vm.pc]? = some i) (hs : Model.step cx.E.H cx.E.P cx.body.length c.vm i = .ok (.cont vm')) :
    CPath cx.E 1 c ⟨c.m, vm'⟩ := by
  obtain ⟨fr, h1, h2, h3⟩ := hf
  refine CPath.one (.cont (i := i) h1 ?_ ?_)
  · rw [h2, ok.body]; exact hi
  · rw [h2, ok.body]; exact hs

/-- an instruction that fails -/
theorem Rel.fails {cx : Cx S} (ok : CxOk cx) {c : Conf S} {i : Instr} {f : Fail} (hf : AtF cx c.m)
    (hi : cx.body[c.vm.pc]? = some i) (hs : Model.step cx.E.H cx.E.P cx.body.length c.vm i = f.res) :
    CEndL cx.E c f.res (c.vm.inst, c.m.world) := by
  obtain ⟨fr, h1, h2, h3⟩ := hf
  refine .fail (i := i) h1 ?_ ?_
  · rw [h2, ok.body]; exact hi
  · rw [h2, ok.body, hs]; cases f <;> rfl

theorem rd_congr {a b : VM} (h1 : a.rf = b.rf) (h2 : a.locals = b.locals) (x : SOp) : rd a x = rd b x := by
  obtain ⟨c, o⟩ := x
  cases o <;> simp only [rd, VM.read, h1, h2]

theorem rd_congrReg {a b : VM} (h1 : a.rf = b.rf) {x : SOp} (h : ∃ g, x = SOp.ofReg g) : rd a x = rd b x := by
  obtain ⟨g, rfl⟩ := h
  simp only [rd_reg, h1]

theorem rds_congr {a b : VM} {os : List SOp} (h : ∀ x ∈ os, rd a x = rd b x) : os.map (rd a) = os.map (rd b) :=
  List.map_congr_left h

theorem segs_congr {a b : VM} {Γ : List Lab} (h : ∀ l ∈ Γ, ∀ x ∈ l.seg, rd a x = rd b x) :
    Γ.map (fun l => l.seg.map (rd a)) = Γ.map (fun l => l.seg.map (rd b)) :=
  List.map_congr_left fun l hl => List.map_congr_left (h l hl)

/-- reading after writing a register -/
theorem rd_set {vm : VM} {rf : RegFile} {c : Cls} {i : Nat} {v : c.Carrier} (h : vm.rf.set c i v = .ok rf) (vm' : VM)
    (hr : vm'.rf = rf) (hl : vm'.locals = vm.locals) :
    rd vm' (sr c i) = .ok ⟨c, v⟩ ∧ ∀ x, x ≠ SOp.ofReg ⟨c, i⟩ → rd vm' x = rd vm x := by
  have hg := get_set vm.rf rf c
  constructor
  · simp only [rd, VM.read, hr]
    rw [hg c i i v h]; simp [Res.bind]
  · intro x hx
    obtain ⟨d, o⟩ := x
    cases o with
    | const w => rfl
    | param j => simp only [rd, VM.read, hl]
    | reg j =>
      simp only [rd, VM.read, hr]
      rw [hg d i j v h]
      split
      · rename_i e
        subst e
        split
        · rename_i e; subst e; exact absurd rfl hx
        · rfl
      · rfl

theorem wfG_regs {W : Cls → Nat} : ∀ {Γ : List Lab}, WfG W Γ → ∀ l ∈ Γ, RegsOnly l.seg
  | [], _, l, hl => by cases hl
  | _ :: Γ, h, l, hl => by
    rcases List.mem_cons.1 hl with rfl | hl
    · exact h.1
    · exact wfG_regs h.2.2 l hl

theorem wfG_drop {W : Cls → Nat} : ∀ {Γ : List Lab} (d : Nat), WfG W Γ → WfG W (Γ.drop d)
  | _, 0, h => by simpa using h
  | [], d + 1, h => by simpa using h
  | _ :: Γ, d + 1, h => by simpa using wfG_drop d h.2.2

/-- reading after a parallel move -/
theorem rd_move {low : RegFile} {W : Cls → Nat} {vm : VM} (hw : Win low W vm.rf) {src dst : List Reg} (hm : MoveOk W src dst) :
    ∃ rf, vm.rf.copyRegs src dst = .ok rf ∧ Win low W rf ∧
      ∀ vm' : VM, vm'.rf = rf → vm'.locals = vm.locals →
        (sregs dst).map (rd vm') = (sregs src).map (rd vm) ∧ ∀ x, (∀ y ∈ dst, x ≠ SOp.ofReg y) → rd vm' x = rd vm x := by
  have hlen : src.length = dst.length := by simpa using congrArg List.length hm.cls
  obtain ⟨rf, h1, h2, h3⟩ := copyRegs_parallel src dst vm.rf hlen
    (fun i hi hi' => by
      have := congrArg (fun l => l[i]?) hm.cls
      simp only [List.getElem?_map, List.getElem?_eq_getElem hi, List.getElem?_eq_getElem hi', Option.map_some,
        Option.some.injEq] at this
      exact this)
    hm.nodup hm.later (fun x hx => hw.get_ok (hm.win x hx))
  refine ⟨rf, h1, hw.copyRegs h1, fun vm' hr hl => ⟨?_, fun x hx => ?_⟩⟩
  · simp only [sregs, List.map_map, List.map_reverse]
    congr 1
    apply List.ext_getElem
    · simp [hlen]
    · intro i hi hi'
      simp only [List.getElem_map, Function.comp, rd_reg, hr]
      exact h2 i (by simpa using hi') (by simpa using hi)
  · obtain ⟨c, o⟩ := x
    cases o with
    | const w => rfl
    | param j => simp only [rd, VM.read, hl]
    | reg j =>
      have := h3 ⟨c, j⟩ (fun hmem => hx _ hmem rfl)
      have e : (⟨c, .reg j⟩ : SOp) = SOp.ofReg ⟨c, j⟩ := rfl
      rw [e, rd_reg, rd_reg, hr, this]

end Verif.Lemmas
