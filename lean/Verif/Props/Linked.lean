import Verif.Lemmas.Linked
import Verif.Lemmas.CompFits
import Verif.Props.Link
import Verif.Lemmas.Foreign
import Verif.Props.Correct
/-
C57 with the instances the imported functions belong to.
-/
namespace Verif.Props
open Verif.Model Verif.Spec Verif.Lemmas

/-- The interpreter, started in `l`, finishes and shows `o`; if that is a result, the other instances are left with the memories
`others`. -/
def LAnswers {S : Wasi} (E : Env) (home : Homes) (L : LDispatcher) (en : Bool) (l : LMachine S) (o : Res (List Val × Store × S.W))
    (others : List (Option Mem)) : Prop :=
  ∃ n r, l.run E home L en n = some r ∧ shown (r >>= fun e => .ok e.forget) = o ∧ ∀ e, r = .ok e → e.others = others

/-- the two dispatchers, for one and for several instances -/
inductive LBuild : (Env → Dispatcher) → (Env → LDispatcher) → Prop
  | loop : LBuild loopD lloopD
  | tco : LBuild tcoD ltcoD

theorem LBuild.build {D : Env → Dispatcher} {L : Env → LDispatcher} (h : LBuild D L) : Build D := by
  cases h
  · exact .loop
  · exact .tco

theorem LBuild.twin {D : Env → Dispatcher} {L : Env → LDispatcher} (h : LBuild D L) (E : Env) : Twin E (D E) (L E) := by
  cases h
  · exact .loop
  · exact .tco

theorem own_needs {o : WOp} (h : ownOp o = true) : oNeeds o ≤ 0 := by
  cases o <;> first | exact Nat.le_refl 0 | simp [ownOp] at h

/-- the code of a self-contained function neither loads nor stores -/
theorem self_contained_noRaw {M : MInfo} {F : SFunc} {t : FuncType} {code : Code} (hF : F.selfContained = true)
    (hc : compileFunc M F = some (.runtime t code)) : NoRaw code.body := by
  cases F with
  | wasi t id => cases hF
  | wasm t' ls b =>
    simp only [compileFunc, Option.map_eq_some_iff] at hc
    obtain ⟨c, hc, he⟩ := hc
    cases he
    intro i hi
    have hops : ∀ o ∈ b.body, oNeeds o ≤ 0 := by
      intro o ho
      simp only [WSeq.body, List.mem_append, List.mem_singleton] at ho
      rcases ho with ho | rfl
      · exact own_needs (flat_own hF o ho)
      · exact Nat.le_refl 0
    have := compile_needs hc 0 hops i hi
    cases i <;> first | rfl | simp [iNeeds] at this

/-- imported functions that need nothing of their instance do not use the raw pointer -/
theorem sources_remote {imps : ImportObjects} {M : Modul} {L : Loaded} (h : instantiateWith imps M = .ok L) {Q : SProg}
    {imp own : List SFunc} (hs : Sources imps M Q imp own) (names : String → String → Option Nat) :
    Remote L.prog (homesOf names M) := by
  obtain ⟨_, _, hi, _⟩ := linked_functions h
  intro f
  unfold homesOf
  cases hk : M.imports[f]? with
  | none => exact .inl rfl
  | some i =>
    refine .inr ?_
    obtain ⟨G, hG, hS⟩ := hi f i hk
    unfold Prog.body
    rw [hG]
    cases G with
    | wasi t id => intro i hi; cases hi
    | runtime t code =>
      have hlt : f < imp.length := by rw [hs.given.1]; exact (List.getElem?_eq_some_iff.mp hk).1
      have hF := hs.given.2 f i _ hk (List.getElem?_eq_getElem hlt)
      generalize imp[f] = F at hF
      obtain ⟨m, n, d⟩ := i
      cases d with
      | func ti =>
        obtain ⟨hsc, M', G', hc, hi'⟩ := hF
        simp only [Supplies] at hS hi'
        rw [hi'] at hS
        cases hS.1
        exact self_contained_noRaw hsc hc
      | wasi w => simp only [Supplies] at hS; cases hS
      | _ => exact hF.elim

/-- **C57** (partial) The same with the instances the imported functions come from in the picture: wherever an imported function's
loads and stores would go, a module whose imported functions need nothing of their instances answers as WebAssembly says of the
linked program, with either dispatcher, and the memories of all other instances are left as they were.  Missing: imported functions
that use their own instance (`foreign_instance_violated`; for loads and stores `foreign_memory_partial`). -/
theorem linked_instances_partial {S : Wasi} {imps : ImportObjects} {M : Modul} {L : Loaded} (h : instantiateWith imps M = .ok L)
    {Q : SProg} {imp own : List SFunc} (hs : Sources imps M Q imp own)
    (acc : Accepted S Q (M.globals.map (·.2.1))) (hgl : L.inst.globals.map (·.value.cls) = M.globals.map (·.2.1))
    {f : Nat} {t : FuncType} {ls : List (Nat × Cls)} {b : WSeq} (hf : Q.funcs[f]? = some (.wasm t ls b)) {args : List Val}
    (ha : args.map (·.cls) = t.params) {D : Env → Dispatcher} {LD : Env → LDispatcher} (hD : LBuild D LD) (en atomics : Bool)
    (world : S.W) (names : String → String → Option Nat) (others : List (Option Mem)) :
    ∃ l, LMachine.new L.prog (homesOf names M) L.inst others world f args = .ok l ∧
      let E := envOf Q.H atomics (fun _ => false) L.prog L.hasWasi
      let Q' := Q.info (M.globals.map (·.2.1))
      (∀ o, Gives S Q Q' (.wasm t ls b) args (storeOf L.inst) world o → LAnswers E (homesOf names M) (LD E) en l o others) ∧
      (¬ HitsHost S Q Q' (.wasm t ls b) args (storeOf L.inst) world →
        ∀ o others', LAnswers E (homesOf names M) (LD E) en l o others' →
          Gives S Q Q' (.wasm t ls b) args (storeOf L.inst) world o ∧ ∀ x, o = .ok x → others' = others) := by
  obtain ⟨m, hm, h1, h2⟩ := linked_correct_partial h hs acc hgl hf ha hD.build en atomics world
  refine ⟨⟨m, [homesOf names M f], others⟩, by unfold LMachine.new; rw [hm]; rfl, ?_⟩
  simp only at h1 h2 ⊢
  generalize hE : envOf Q.H atomics (fun _ => false) L.prog L.hasWasi = E at h1 h2 ⊢
  have hP : E.P = L.prog := by rw [← hE]; rfl
  have hr : Remote E.P (homesOf names M) := by rw [hP]; exact sources_remote h hs names
  have hlined : Lined E.P m.frames [homesOf names M f] := by
    obtain ⟨fr, hfr, hff⟩ : ∃ fr, m.frames = [fr] ∧ fr.func = f := by
      unfold Machine.new at hm
      split at hm
      · split at hm
        · cases hm
        · cases hm; exact ⟨_, rfl, rfl⟩
      · cases hm
    rw [hfr]
    exact .cons (by rw [hff]; exact hr f) .nil
  have key := fun n => run_own hr (hD.twin E) en n ⟨m, [homesOf names M f], others⟩ hlined
  refine ⟨fun o ho => ?_, fun hh o others' ho => ?_⟩
  · obtain ⟨n, r, hrun, hsh⟩ := h1 o ho
    have hk := key n
    simp only [hrun, Option.map_some, Option.map_eq_some_iff] at hk
    obtain ⟨r', hr', he⟩ := hk
    refine ⟨n, r', hr', ?_, ?_⟩
    · rw [← hsh]
      cases r' <;> cases r <;> cases he <;> rfl
    · rintro e rfl
      cases r <;> cases he
      rfl
  · obtain ⟨n, r', hr', hsh, hoth⟩ := ho
    have hk := key n
    simp only [hr', Option.map_some] at hk
    obtain ⟨r, hrun, he⟩ := Option.map_eq_some_iff.mp hk.symm
    refine ⟨h2 hh o ⟨n, r, hrun, ?_⟩, ?_⟩
    · rw [← hsh]
      cases r' <;> cases r <;> cases he <;> rfl
    · rintro x rfl
      cases r' with
      | ok e =>
        rw [← hoth e rfl]
        cases r <;> cases he
        rfl
      | _ => cases hsh

/-! ## Functions that load from and store to their own memory -/

/-- **C57** (partial) A function that uses nothing of its instance but its memory, by loads and stores, may be called from another
instance: `f` is, in the runtime's instance (machine `l`, program `E.P`), the function `g` of an instance `iB` whose memory the
runtime knows as its `k`-th.  Called by the running frame `c` with `args`, it does what WebAssembly says the function does in its own
instance `iB`: the values come back into the registers `rs`, `iB`'s memory is changed as it says and nothing else anywhere is; a trap
ends the run; and if it ends at all, WebAssembly gives it an outcome.  Missing: everything else a function can use of its instance
(`foreign_instance_violated`, `foreign_memory_size_violated`, `foreign_memory_grow_violated`). -/
theorem foreign_memory_partial {S : Wasi} {E EB : Env} (hq : Quiet E) {D : Env → Dispatcher} {L : Env → LDispatcher} (hD : LBuild D L)
    (en : Bool) {QB : SProg} {gB : List Cls} {iB : Inst} {g : Nat} {t : FuncType} {ls : List (Nat × Cls)} {b : WSeq}
    {args : List Val} (st : Start S EB QB gB iB g t ls b args) (hH : EB.H = E.H) (hmem : (SFunc.wasm t ls b).ownMemory = true)
    {home : Homes} {f k : Nat} {l : LMachine S} {c : Frame} {cs : List Frame} (hf : E.P.funcs[f]? = EB.P.funcs[g]?)
    (hk : home f = some k) (ho : l.others[k]? = some iB.mem) (hfr : l.m.frames = c :: cs)
    (hlow : l.m.rf.cached = match l.m.rf.frames with | [] => fun _ => 0 | o :: _ => o) (rs : List Reg) :
    ∃ l1, l.doInvoke E.P home en f args rs = .ok (.running l1) ∧
      (∀ vs st' w', Gives S QB (QB.info gB) (.wasm t ls b) args (storeOf iB) l.m.world (.ok (vs, st', w')) →
        st' = { storeOf iB with mem := st'.mem } ∧ w' = l.m.world ∧
        ∃ n looks, l1.round E home (L E) en n = some (do
          let rf ← l.m.rf.setVals rs vs
          pure (.running ⟨{ l.m with rf := rf, frames := { c with resultRegs := [], memPtr := l.m.inst.ptr } :: cs, looks := looks },
            home c.func :: l.foreign.tail, l.others.set k st'.mem⟩))) ∧
      (∀ e : Fail, Gives S QB (QB.info gB) (.wasm t ls b) args (storeOf iB) l.m.world e.report →
        ∃ n, l1.round E home (L E) en n = some e.report) ∧
      (¬ HitsHost S QB (QB.info gB) (.wasm t ls b) args (storeOf iB) l.m.world → ∀ n r, l1.round E home (L E) en n = some r →
        ∃ o, Gives S QB (QB.info gB) (.wasm t ls b) args (storeOf iB) l.m.world o) := by
  have hn := own_memory_needs st hmem
  have hfaith : Faithful { E with P := EB.P } (D { E with P := EB.P }) := by
    have hq' : Quiet { E with P := EB.P } := hq
    cases hD
    · exact loop_faithful hq'
    · exact tco_faithful hq'
  have hnoCk : ∀ n code d r, D { E with P := EB.P } n code d = some r → obsF r ≠ .trap .checkpointRequested := by
    have hq' : Quiet { E with P := EB.P } := hq
    cases hD
    · exact fun n code d r h => loop_noCk hq' code n d r h
    · exact fun n code d r h => tco_noCk hq' code n d r h
  have hin : Inside (EB.P.body g) := (compile_preprocessed st.load).inside g
  obtain ⟨W, hP, hcl, hok, hfail, hstuck, htime⟩ := own_run st l.m.world hlow hn
  have hP' : E.P.funcs[f]? = some (.runtime t ⟨ls, EB.P.body g, some W⟩) := by rw [hf, hP]
  have hbody : E.P.body f = EB.P.body g := by simp only [Prog.body, hP']
  have hkl : k < l.others.length := (List.getElem?_eq_some_iff.mp ho).1
  have hset : l.others.set k iB.mem = l.others := by
    have := (List.getElem?_eq_some_iff.mp ho).2
    rw [← this]; exact List.set_getElem_self ..
  let fr := newFrame l.m.inst f t (args ++ declLocals ls) en
  let l1 : LMachine S := ⟨{ l.m with rf := l.m.rf.saveOffsets W, frames := fr :: { c with resultRegs := rs } :: cs },
    home f :: l.foreign, l.others⟩
  let d0 : DState := { vm := entry iB l.m.rf W (args ++ declLocals ls), enable := en, counter := 0, looks := l.m.looks }
  have hround : ∀ n, l1.round E home (L E) en n =
      ((D { E with P := EB.P } n (EB.P.body g) d0).map fun r => r >>= fun fin => .ok (backF l.m.inst l.m.inst.ptr k l.others fin)).map
        fun r => r >>= l1.react E home en fr := by
    intro n
    have hs : l1.side = sideV k l.others d0.vm := by
      simp only [LMachine.side, l1, sideV, d0, entry, hset, hk, List.head?_cons, Option.join_some]
    have := foreign_dispatch (D := D) (L := L) (by cases hD <;> simp) l.m.inst l.m.inst.ptr (E := E) (P' := EB.P) hkl hn n d0 rfl
    rw [← this]
    simp only [LMachine.round, l1]
    rw [show E.P.body fr.func = EB.P.body g from hbody]
    rw [show (LMachine.side ⟨{ l.m with rf := l.m.rf.saveOffsets W, frames := fr :: { c with resultRegs := rs } :: cs },
      home f :: l.foreign, l.others⟩) = sideV k l.others d0.vm from hs]
    rw [show (Machine.enter { l.m with rf := l.m.rf.saveOffsets W, frames := fr :: { c with resultRegs := rs } :: cs } fr) =
      backD l.m.inst l.m.inst.ptr d0 from rfl]
    cases L E n (EB.P.body g) (backD l.m.inst l.m.inst.ptr d0) (sideV k l.others d0.vm) <;> rfl
  have hret : ∀ d : DState, ((l1.leave fr (backD l.m.inst l.m.inst.ptr d) (sideV k l.others d.vm)).doReturn home) = (do
      let vs ← d.vm.rf.getVals d.vm.retRegs
      let rf ← d.vm.rf.restoreOffsets.setVals rs vs
      pure (.running ⟨{ l.m with rf := rf, frames := { c with resultRegs := [], memPtr := l.m.inst.ptr } :: cs, looks := d.looks },
            home c.func :: l.foreign.tail, l.others.set k d.vm.inst.mem⟩)) := by
    intro d
    simp only [LMachine.doReturn, LMachine.leave, Machine.doReturn, Machine.leave, l1, List.tail_cons, backD, backV]
    cases d.vm.rf.getVals d.vm.retRegs with
    | ok vs =>
      simp only [Res.bind_ok]
      cases d.vm.rf.restoreOffsets.setVals rs vs <;> rfl
    | _ => rfl
  have hend : ∀ (kk : Nat) (y : Option Yield) (vm' : VM), plainRun EB.H EB.P (EB.P.body g) kk d0.vm = some (.ok (y, vm')) →
      (y = none ∨ y = some .ret) → ∃ (n : Nat) (d : DState), d.vm.rf = vm'.rf ∧ d.vm.retRegs = vm'.retRegs ∧ d.vm.inst = vm'.inst ∧
        l1.round E home (L E) en n = some ((l1.leave fr (backD l.m.inst l.m.inst.ptr d) (sideV k l.others d.vm)).doReturn home) := by
    intro kk y vm' hrun hy
    rw [hH] at hrun
    obtain ⟨n, r, h1, h2⟩ := hfaith.bwd kk _ d0 _ hin hrun
    refine ⟨n, ?_⟩
    rw [hround, h1]
    cases r with
    | ok fin =>
      cases fin with
      | halt d =>
        simp only [obsF, Res.ok_inj, Prod.mk.injEq] at h2
        obtain ⟨rfl, h2⟩ := h2
        exact ⟨d, by rw [← h2], by rw [← h2], by rw [← h2], rfl⟩
      | yield y' d =>
        simp only [obsF, Res.ok_inj, Prod.mk.injEq] at h2
        obtain ⟨rfl, h2⟩ := h2
        rcases hy with hy | hy <;> cases hy
        exact ⟨d, by rw [h2], by rw [h2], by rw [h2], rfl⟩
      | ckpt d => cases h2
    | _ => cases h2
  refine ⟨l1, ?_, fun vs st' w' hg => ?_, fun e hg => ?_, fun hh n r hr => ?_⟩
  · simp only [LMachine.doInvoke, Machine.doInvoke, hP', hcl, Res.bind_ok, hfr]
    rfl
  · obtain ⟨n, hi⟩ : ∃ n, invoke S QB (QB.info gB) n (.wasm t ls b) args (storeOf iB) l.m.world = .ok vs st' w' := by
      generalize ho' : (Res.ok (vs, st', w') : Res (List Val × Store × S.W)) = o at hg
      cases hg with
      | ok h => cases ho'; exact ⟨_, h⟩
      | @fail _ e _ _ h => cases e <;> cases ho'
    obtain ⟨hw, ⟨kk, y, vm', hrun, hy, hinst, hst, hrf, hv, _⟩⟩ := hok n vs st' w' hi
    refine ⟨hst, hw, ?_⟩
    obtain ⟨n', d, e1, e2, e3, hr⟩ := hend kk y vm' hrun hy
    refine ⟨n', d.looks, ?_⟩
    rw [hr, hret, e1, e2, hv, hrf, e3, hinst]
    rfl
  · obtain ⟨n, e', st', w', he, hi⟩ : ∃ n e' st' w', (e.report : Res (List Val × Store × S.W)) = e'.report ∧
        invoke S QB (QB.info gB) n (.wasm t ls b) args (storeOf iB) l.m.world = .fail e' st' w' := by
      generalize ho' : (e.report : Res (List Val × Store × S.W)) = o at hg
      cases hg with
      | ok h => cases e <;> cases ho'
      | @fail _ e' _ _ h => exact ⟨_, e', _, _, rfl, h⟩
    have he' : e = e' := by cases e <;> cases e' <;> cases he <;> rfl
    subst he'
    obtain ⟨kk, o, hrun, hor⟩ := hfail n e st' w' hi
    rcases hor with rfl | ⟨y, vm', rfl, hy, hv⟩
    · rw [hH] at hrun
      obtain ⟨n', r, h1, h2⟩ := hfaith.bwd kk _ d0 _ hin hrun
      refine ⟨n', ?_⟩
      rw [hround, h1]
      cases r with
      | ok fin =>
        have := hnoCk n' _ d0 _ h1
        cases fin <;> cases e <;> cases h2
        exact (this rfl).elim
      | trap x => cases e <;> cases h2; rfl
      | panic => cases e <;> cases h2; rfl
      | ub => cases e <;> cases h2; rfl
    · obtain ⟨n', d, e1, e2, e3, hr⟩ := hend kk y vm' hrun hy
      refine ⟨n', ?_⟩
      rw [hr, hret, e1, e2, hv]
      cases e <;> rfl
  · rcases Classical.em (∃ n, invoke S QB (QB.info gB) n (.wasm t ls b) args (storeOf iB) l.m.world ≠ .timeout) with ⟨n', hne⟩ | hno
    · cases hi : invoke S QB (QB.info gB) n' (.wasm t ls b) args (storeOf iB) l.m.world with
      | ok vs s w => exact ⟨_, .ok hi⟩
      | fail e s w => exact ⟨_, .fail hi⟩
      | stuck => exact (hstuck _ hi).elim
      | timeout => exact (hne hi).elim
      | gap => exact (hh ⟨_, hi⟩).elim
    · have hall : ∀ n, invoke S QB (QB.info gB) n (.wasm t ls b) args (storeOf iB) l.m.world = .timeout := fun n =>
        Classical.byContradiction fun h => hno ⟨n, h⟩
      rw [hround] at hr
      cases hd : D { E with P := EB.P } n (EB.P.body g) d0 with
      | none => rw [hd] at hr; cases hr
      | some r' =>
        obtain ⟨kk, hk'⟩ := hfaith.fwd n _ d0 r' hin hd
        have := htime hall kk
        rw [hH] at this
        rw [show (entry iB l.m.rf W (args ++ declLocals ls)) = d0.vm from rfl] at this
        rw [this] at hk'
        cases hk'

end Verif.Props
