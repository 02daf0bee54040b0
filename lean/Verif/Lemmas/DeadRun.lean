import Verif.Lemmas.DeadSim
/-
Whole runs of a program whose bodies have been moved.
-/
namespace Verif.Model

/-- rename the positions of a frame; `F g` is the renaming for function `g` -/
def Frame.ren (F : Nat → Nat → Nat) (f : Frame) : Frame := { f with labels := f.labels.map (Label.ren (F f.func)) }
/-- rename the positions of every frame -/
def Machine.ren {S : Wasi} (F : Nat → Nat → Nat) (m : Machine S) : Machine S := { m with frames := m.frames.map (Frame.ren F) }
/-- rename the machine a round leaves -/
def Round.ren {S : Wasi} (F : Nat → Nat → Nat) : Round S → Round S
  | .running m => .running (m.ren F)
  | .done vs m => .done vs (m.ren F)
  | .ckpt m => .ckpt (m.ren F)
/-- rename the machine a run leaves -/
def End.ren {S : Wasi} (F : Nat → Nat → Nat) : End S → End S
  | .done vs m => .done vs (m.ren F)
  | .ckpt m => .ckpt (m.ren F)

end Verif.Model

namespace Verif.Lemmas
open Verif.Model Verif.Spec Verif.Props

/-- two functions that differ by a renaming of the positions of their body -/
inductive FnMoves (f : Nat → Nat) : FuncInst → FuncInst → Prop
  | runtime {t : FuncType} {c c' : Code} (hl : c'.locals = c.locals) (ha : c'.alloc = c.alloc) (hb : Moves f c.body c'.body) :
      FnMoves f (.runtime t c) (.runtime t c')
  | wasi {t : FuncType} {id : Nat} : FnMoves f (.wasi t id) (.wasi t id)

/-- two programs that differ by renamings of the positions of their bodies -/
structure ProgMoves (F : Nat → Nat → Nat) (P Q : Prog) : Prop where
  types : Q.types = P.types
  zero : ∀ g, F g 0 = 0
  there : ∀ (g : Nat) (x : FuncInst), P.funcs[g]? = some x → ∃ y, Q.funcs[g]? = some y ∧ FnMoves (F g) x y
  absent : ∀ (g : Nat), P.funcs[g]? = none → Q.funcs[g]? = none

theorem ProgMoves.sig {F : Nat → Nat → Nat} {P Q : Prog} (h : ProgMoves F P Q) : SameSig P Q := by
  refine ⟨h.types, fun g => ?_⟩
  cases hp : P.funcs[g]? with
  | none => rw [h.absent g hp]
  | some x =>
    obtain ⟨y, h1, h2⟩ := h.there g x hp
    rw [h1]
    cases h2 <;> rfl

theorem ProgMoves.moves {F : Nat → Nat → Nat} {P Q : Prog} (h : ProgMoves F P Q) (g : Nat) {t : FuncType} {c : Code}
    (hg : P.funcs[g]? = some (.runtime t c)) : Moves (F g) (P.body g) (Q.body g) := by
  obtain ⟨y, h1, h2⟩ := h.there g _ hg
  cases h2 with
  | runtime hl ha hb => simp only [Prog.body, hg, h1]; exact hb

/-- where a frame of a running program stands -/
structure FrameLive (P : Prog) (f : Frame) : Prop where
  fn : ∃ t c, P.funcs[f.func]? = some (.runtime t c)
  pc : f.at ≤ (P.body f.func).length
  labels : LabelsAt (P.body f.func) f.at f.labels
  alive : (P.body f.func)[f.at]? ≠ some .nop

theorem FrameLive.enter {S : Wasi} {P : Prog} {f : Frame} (h : FrameLive P f) (m : Machine S) :
    StandsAt (P.body f.func) (m.enter f).vm := ⟨h.pc, h.labels, h.alive⟩

/-- every body is one made by the preprocessor -/
def MadeP (P : Prog) : Prop := ∀ g, Made (P.body g)

theorem made_of {P : Prog} (h : Preprocessed P) : MadeP P := by
  intro g
  refine ⟨h.inside g, h.routed g, ?_⟩
  unfold Prog.body
  split
  · rename_i t code hf
    obtain ⟨K, ops, hc⟩ := h g t code hf
    exact compile_noFall hc
  · exact ⟨by simp, by simp⟩

/-- where a dispatcher call leaves the frame, when the frame goes on -/
def FinalLive (body : List Instr) : Final → Prop
  | .halt _ => True
  | .yield y d => y = .ret ∨ StandsAt body d.vm
  | .ckpt d => StandsAt body d.vm

theorem loop_final {E : Env} {body : List Instr} (hc : Made body) : ∀ (n : Nat) (d : DState) (fin : Final), StandsAt body d.vm →
    loopRun E body n d = some (.ok fin) → FinalLive body fin
  | 0, _, _, _, h => by simp [loopRun] at h
  | n + 1, d, fin, hl, h => by
    rw [loopRun] at h
    cases hp : poll E d with
    | mk b d1 =>
      rw [hp] at h
      have hvm := poll_vm' hp
      rw [← hvm] at hl
      cases b with
      | true =>
        simp only [Option.some.injEq, Res.ok_inj] at h
        subst h; exact hl
      | false =>
        simp only at h
        cases hi : body[d1.vm.pc]? with
        | none =>
          obtain ⟨h1, l, h2⟩ := hl.at_end hc hi
          rw [hi, h2] at h
          simp only [Option.some.injEq, Res.ok_inj] at h
          subst h; trivial
        | some i =>
          rw [hi] at h
          simp only at h
          cases hst : Model.step E.H E.P body.length d1.vm i with
          | ok o =>
            rw [hst] at h
            cases o with
            | cont vm => exact loop_final hc n { d1 with vm := vm } fin (hl.step hc hi hst) h
            | yield y vm =>
              simp only [Option.some.injEq, Res.ok_inj] at h
              subst h; exact hl.call hc hi hst
          | trap e => rw [hst] at h; cases h
          | panic => rw [hst] at h; cases h
          | ub => rw [hst] at h; cases h

theorem tcoChain_final {E : Env} {body : List Instr} (hc : Made body) : ∀ (n : Nat) (d : DState) (fin : Final), StandsAt body d.vm →
    tcoChain E body n d = some (.ok fin) → FinalLive body fin
  | 0, _, _, _, h => by simp [tcoChain] at h
  | n + 1, d, fin, hl, h => by
    rw [tcoChain] at h
    cases hi : body[d.vm.pc]? with
    | none =>
      obtain ⟨h1, l, h2⟩ := hl.at_end hc hi
      rw [hi] at h
      simp only [h1, if_true, Option.some.injEq, Res.ok_inj] at h
      subst h; trivial
    | some i =>
      rw [hi] at h
      simp only at h
      cases hst : Model.step E.H E.P body.length d.vm i with
      | ok o =>
        rw [hst] at h
        cases o with
        | cont vm =>
          simp only at h
          have hl1 := hl.step hc hi hst
          cases hp : poll E { d with vm := vm } with
          | mk b d1 =>
            rw [hp] at h
            have hvm := poll_vm' hp
            have hl2 : StandsAt body d1.vm := by rw [hvm]; exact hl1
            cases b with
            | true =>
              simp only [Option.some.injEq, Res.ok_inj] at h
              subst h; exact hl2
            | false => exact tcoChain_final hc n d1 fin hl2 h
        | yield y vm =>
          simp only [Option.some.injEq, Res.ok_inj] at h
          subst h; exact hl.call hc hi hst
      | trap e => rw [hst] at h; cases h
      | panic => rw [hst] at h; cases h
      | ub => rw [hst] at h; cases h

theorem tcoRun_final {E : Env} {body : List Instr} (hc : Made body) (n : Nat) (d : DState) (fin : Final) (hl : StandsAt body d.vm)
    (h : tcoRun E body n d = some (.ok fin)) : FinalLive body fin := by
  rw [tcoRun] at h
  cases hp : poll E d with
  | mk b d1 =>
    rw [hp] at h
    have hvm := poll_vm' hp
    rw [← hvm] at hl
    cases b with
    | true =>
      simp only [Option.some.injEq, Res.ok_inj] at h
      subst h; exact hl
    | false =>
      simp only at h
      split at h
      · simp only [Option.some.injEq, Res.ok_inj] at h
        subst h; trivial
      · exact tcoChain_final hc n d1 fin hl h

/-- the two dispatchers, as a pair over two programs -/
inductive Pair (E E' : Env) : Dispatcher → Dispatcher → Prop
  | loop : Pair E E' (loopD E) (loopD E')
  | tco : Pair E E' (tcoD E) (tcoD E')

theorem Pair.ren {E E' : Env} {D D' : Dispatcher} (h : Pair E E' D D') (hE : SameEnv E E') {f : Nat → Nat} {body body' : List Instr}
    (hc : Made body) (hm : Moves f body body') (n : Nat) (d : DState) (hl : StandsAt body d.vm) :
      D' n body' (d.ren f) = (D n body d).map (Res.rmap (Final.ren f)) := by
  cases h with
  | loop => exact loop_ren hE hc hm n d hl
  | tco => exact tcoRun_ren hE hc hm n d hl

theorem Pair.final {E E' : Env} {D D' : Dispatcher} (h : Pair E E' D D') {body : List Instr} (hc : Made body) (n : Nat) (d : DState)
    (fin : Final) (hl : StandsAt body d.vm) (hd : D n body d = some (.ok fin)) : FinalLive body fin := by
  cases h with
  | loop => exact loop_final hc n d fin hl hd
  | tco => exact tcoRun_final hc n d fin hl hd

theorem enter_ren {S : Wasi} {F : Nat → Nat → Nat} (h0 : ∀ g, F g 0 = 0) (m : Machine S) (f : Frame) :
    (m.ren F).enter (f.ren F) = (m.enter f).ren (F f.func) := by
  simp only [Machine.enter, DState.ren, VM.ren, Frame.ren, Machine.ren, List.head?_map, Option.map_map]
  congr 2
  cases f.labels.head? with
  | none => exact (h0 _).symm
  | some l => rfl

theorem leave_ren {S : Wasi} {F : Nat → Nat → Nat} (m : Machine S) (f : Frame) (d : DState) :
    (m.ren F).leave (f.ren F) (d.ren (F f.func)) = (m.leave f d).ren F := by
  simp only [Machine.leave, Machine.ren, Frame.ren, DState.ren, VM.ren, List.map_cons, List.map_tail]
  cases d.vm.labels <;> rfl

theorem doReturn_ren {S : Wasi} {F : Nat → Nat → Nat} (m : Machine S) :
    (m.ren F).doReturn = m.doReturn.rmap (Round.ren F) := by
  have e : (m.ren F).rf = m.rf := rfl
  have e1 : (m.ren F).inst = m.inst := rfl
  have ef : (m.ren F).frames = m.frames.map (Frame.ren F) := rfl
  unfold Machine.doReturn
  rw [ef]
  cases m.frames with
  | nil => rfl
  | cons f rest =>
    cases rest with
    | nil =>
      simp only [List.map_cons, List.map_nil, Res.rmap_bind, e]
      exact Res.bind_congr fun _ => rfl
    | cons c cs =>
      simp only [List.map_cons, Res.rmap_bind, e, e1]
      exact Res.bind_congr fun _ => Res.bind_congr fun _ => rfl

theorem doInvoke_ren {S : Wasi} {F : Nat → Nat → Nat} {P Q : Prog} (h : ProgMoves F P Q) (en : Bool) (m : Machine S) (g : Nat)
    (ps : List Val) (rs : List Reg) : (m.ren F).doInvoke Q en g ps rs = (m.doInvoke P en g ps rs).rmap (Round.ren F) := by
  unfold Machine.doInvoke
  cases hp : P.funcs[g]? with
  | none => rw [h.absent g hp]; rfl
  | some x =>
    obtain ⟨y, h1, h2⟩ := h.there g x hp
    rw [h1]
    cases h2 with
    | wasi => rfl
    | runtime hl ha hb =>
      simp only [hl, ha, Res.rmap_bind]
      refine Res.bind_congr fun ls => ?_
      have ef : (m.ren F).frames = m.frames.map (Frame.ren F) := rfl
      simp only [Res.pure_eq, Res.rmap, Round.ren, Machine.ren, List.map_cons, newFrame, Frame.ren, Label.ren, h.zero, List.map_nil]
      cases m.frames <;> rfl

theorem doWasi_ren {S : Wasi} {F : Nat → Nat → Nat} (hw : Bool) (m : Machine S) (id : Nat) (ps : List Val) (r : Option Reg) :
    (m.ren F).doWasi hw id ps r = (m.doWasi hw id ps r).rmap (Round.ren F) := by
  unfold Machine.doWasi
  have e1 : (m.ren F).inst = m.inst := rfl
  have e2 : (m.ren F).world = m.world := rfl
  have e3 : (m.ren F).rf = m.rf := rfl
  rw [e1, e2]
  cases hw with
  | false => rfl
  | true =>
    cases m.inst.mem with
    | none => rfl
    | some mem =>
      simp only [Res.rmap_bind]
      refine Res.bind_congr fun x => ?_
      obtain ⟨o, mem', w⟩ := x
      cases o with
      | none => rfl
      | some res =>
        cases r with
        | none => rfl
        | some reg =>
          cases res with
          | none => rfl
          | some v =>
            simp only [Res.rmap_bind, e3]
            exact Res.bind_congr fun _ => rfl

theorem react_ren {S : Wasi} {E E' : Env} {F : Nat → Nat → Nat} (h : ProgMoves F E.P E'.P) (hw : E'.hasWasi = E.hasWasi) (en : Bool)
    (m : Machine S) (f : Frame) (fin : Final) :
    (m.ren F).react E' en (f.ren F) (fin.ren (F f.func)) = (m.react E en f fin).rmap (Round.ren F) := by
  cases fin with
  | ckpt d => simp only [Final.ren, Machine.react, leave_ren]; rfl
  | halt d => simp only [Final.ren, Machine.react, leave_ren, doReturn_ren]
  | yield y d =>
    cases y with
    | ret => simp only [Final.ren, Machine.react, leave_ren, doReturn_ren]
    | invoke g ps rs => simp only [Final.ren, Machine.react, leave_ren, doInvoke_ren h]
    | wasi id ps r => simp only [Final.ren, Machine.react, leave_ren, doWasi_ren, hw]

/-- every frame stands at a proper place -/
def AllLive {S : Wasi} (P : Prog) (m : Machine S) : Prop := ∀ f ∈ m.frames, FrameLive P f

theorem round_ren {S : Wasi} {E E' : Env} {D D' : Dispatcher} (hD : Pair E E' D D') (hE : SameEnv E E') {F : Nat → Nat → Nat}
    (h : ProgMoves F E.P E'.P) (hM : MadeP E.P) (en : Bool) (n : Nat) (m : Machine S) (hl : AllLive E.P m) :
    (m.ren F).round E' D' en n = (m.round E D en n).map (Res.rmap (Round.ren F)) := by
  unfold Machine.round
  have ef : (m.ren F).frames = m.frames.map (Frame.ren F) := rfl
  cases hf : m.frames with
  | nil => rw [ef, hf]; rfl
  | cons f fs =>
    rw [ef, hf]
    simp only [List.map_cons]
    have hfl := hl f (by rw [hf]; exact List.mem_cons_self)
    obtain ⟨t, c, hfn⟩ := hfl.fn
    rw [show (f.ren F).func = f.func from rfl, enter_ren h.zero,
      hD.ren hE (hM f.func) (h.moves f.func hfn) n (m.enter f) (hfl.enter m)]
    cases D n (E.P.body f.func) (m.enter f) with
    | none => rfl
    | some r =>
      cases r with
      | ok fin => exact congrArg some (react_ren h hE.hasWasi en m f fin)
      | _ => rfl

theorem FrameLive.leave {P : Prog} {f : Frame} (hf : ∃ t c, P.funcs[f.func]? = some (.runtime t c)) {d : DState}
    (h : StandsAt (P.body f.func) d.vm) (rs : List Reg) :
    FrameLive P { f with
      locals := d.vm.locals
      labels := match d.vm.labels with | [] => [] | l :: ls => { l with ip := d.vm.pc } :: ls
      resultRegs := rs
      retRegs := d.vm.retRegs
      memPtr := d.vm.memPtr } := by
  match hd : d.vm.labels with
  | [] => have h2 := h.labels; rw [hd] at h2; have := labelsAt_length h2; simp at this
  | l :: ls =>
    have h2 := h.labels
    rw [hd] at h2
    exact ⟨hf, h.pc, h2, h.alive⟩

/-- the machine after a round, if it goes on -/
def RoundLive {S : Wasi} (P : Prog) : Round S → Prop
  | .running m' | .ckpt m' => AllLive P m'
  | .done _ _ => True

theorem round_live {S : Wasi} {E : Env} {D : Dispatcher} (hD : Pair E E D D) (hM : MadeP E.P) {en : Bool} {n : Nat} {m : Machine S}
    (hm : AllLive E.P m) {R : Round S} (h : m.round E D en n = some (.ok R)) : RoundLive E.P R := by
  unfold Machine.round at h
  cases hf : m.frames with
  | nil => rw [hf] at h; simp only [Option.some.injEq, Res.ok_inj] at h; subst h; trivial
  | cons f fs =>
    rw [hf] at h
    simp only at h
    have hfr := hm f (by rw [hf]; exact List.mem_cons_self)
    have hrest : ∀ g ∈ fs, FrameLive E.P g := fun g hg => hm g (by rw [hf]; exact List.mem_cons_of_mem _ hg)
    cases hd : D n (E.P.body f.func) (m.enter f) with
    | none => rw [hd] at h; cases h
    | some r =>
      rw [hd] at h
      simp only [Option.some.injEq] at h
      rw [Res.bind_eq_ok] at h
      obtain ⟨fin, rfl, hre⟩ := h
      have key := hD.final (hM f.func) n (m.enter f) fin (hfr.enter m) hd
      have ret : ∀ d, (m.leave f d).doReturn = .ok R → RoundLive E.P R := by
        intro d h
        unfold Machine.doReturn at h
        rw [leave_frames hf] at h
        simp only at h
        match fs, hrest with
        | [], _ =>
          simp only [Res.bind_eq_ok, Res.pure_eq, Res.ok_inj] at h
          obtain ⟨_, _, rfl⟩ := h
          trivial
        | c :: cs, hrest =>
          simp only [Res.bind_eq_ok, Res.pure_eq, Res.ok_inj] at h
          obtain ⟨_, _, _, _, rfl⟩ := h
          intro g hg
          have hcl := hrest c List.mem_cons_self
          rcases List.mem_cons.1 hg with rfl | hg
          · exact ⟨hcl.fn, hcl.pc, hcl.labels, hcl.alive⟩
          · exact hrest g (List.mem_cons_of_mem _ hg)
      have left : ∀ d, StandsAt (E.P.body f.func) d.vm → AllLive E.P (m.leave f d) := by
        intro d h1 x hx
        rw [leave_frames hf] at hx
        rcases List.mem_cons.1 hx with rfl | hx
        · exact FrameLive.leave hfr.fn h1 f.resultRegs
        · exact hrest x hx
      cases fin with
      | ckpt d =>
        simp only [Machine.react, Res.ok_inj] at hre
        subst hre
        exact left d key
      | halt d => exact ret d hre
      | yield y d =>
        cases y with
        | ret => exact ret d hre
        | invoke g ps rs =>
          rcases key with key | key
          · cases key
          simp only [Machine.react, Machine.doInvoke] at hre
          split at hre
          · rename_i t code hg
            simp only [Res.bind_eq_ok, Res.pure_eq, Res.ok_inj] at hre
            obtain ⟨_, _, rfl⟩ := hre
            simp only [RoundLive, AllLive]
            rw [leave_frames hf]
            intro x hx
            rcases List.mem_cons.1 hx with rfl | hx
            · exact ⟨⟨t, code, hg⟩, Nat.zero_le _, rfl, (hM g).noFall.first⟩
            · rcases List.mem_cons.1 hx with rfl | hx
              · exact FrameLive.leave hfr.fn key rs
              · exact hrest x hx
          · cases hre
          · cases hre
        | wasi id ps r =>
          rcases key with key | key
          · cases key
          have hfin := left d key
          simp only [Machine.react, Machine.doWasi] at hre
          split at hre
          · simp only [Res.bind_eq_ok] at hre
            obtain ⟨⟨o, w⟩, _, hre⟩ := hre
            cases o with
            | none => cases hre
            | some res =>
              simp only at hre
              split at hre
              · simp only [Res.bind_eq_ok, Res.pure_eq, Res.ok_inj] at hre
                obtain ⟨_, _, rfl⟩ := hre
                exact hfin
              · simp only [Res.pure_eq, Res.ok_inj] at hre
                subst hre; exact hfin
          · cases hre

theorem runLoop_ren {S : Wasi} {E E' : Env} {D D' : Dispatcher} (hD : Pair E E' D D') (hD1 : Pair E E D D) (hE : SameEnv E E')
    {F : Nat → Nat → Nat} (h : ProgMoves F E.P E'.P) (hM : MadeP E.P) (en : Bool) (n : Nat) : ∀ (k : Nat) (m : Machine S),
    AllLive E.P m → (m.ren F).runLoop E' D' en n k = (m.runLoop E D en n k).map (Res.rmap (End.ren F))
  | 0, _, _ => rfl
  | k + 1, m, hl => by
    rw [Machine.runLoop, Machine.runLoop, round_ren hD hE h hM en n m hl]
    cases hr : m.round E D en n with
    | none => rfl
    | some r =>
      match r, hr with
      | .ok (.running m'), hr => exact runLoop_ren hD hD1 hE h hM en n k m' (round_live hD1 hM hl hr)
      | .ok (.done _ _), _ => rfl
      | .ok (.ckpt _), _ => rfl
      | .trap _, _ => rfl
      | .panic, _ => rfl
      | .ub, _ => rfl

theorem setFirst_ren {F : Nat → Nat → Nat} (en : Bool) : ∀ fs : List Frame,
    setFirstEnable en (fs.map (Frame.ren F)) = (setFirstEnable en fs).map (Frame.ren F)
  | [] => rfl
  | [_] => rfl
  | f :: g :: fs => by
    have := setFirst_ren (F := F) en (g :: fs)
    simp only [List.map_cons, setFirstEnable] at this ⊢
    rw [this]

theorem setFirst_live {P : Prog} (en : Bool) : ∀ fs : List Frame, (∀ f ∈ fs, FrameLive P f) →
    ∀ f ∈ setFirstEnable en fs, FrameLive P f
  | [], h => h
  | [f], h => by
    intro g hg
    simp only [setFirstEnable, List.mem_singleton] at hg
    subst hg
    have := h f List.mem_cons_self
    exact ⟨this.fn, this.pc, this.labels, this.alive⟩
  | f :: g :: fs, h => by
    intro x hx
    rw [setFirstEnable] at hx
    rcases List.mem_cons.1 hx with rfl | hx
    · exact h _ List.mem_cons_self
    · exact setFirst_live en (g :: fs) (fun y hy => h y (List.mem_cons_of_mem _ hy)) x hx
    · simp

/-- a run of the moved program is the moved run of the program -/
theorem run_ren {S : Wasi} {E E' : Env} {D D' : Dispatcher} (hD : Pair E E' D D') (hD1 : Pair E E D D) (hE : SameEnv E E')
    {F : Nat → Nat → Nat} (h : ProgMoves F E.P E'.P) (hM : MadeP E.P) (en : Bool) (n : Nat) (m : Machine S) (hl : AllLive E.P m) :
    (m.ren F).run E' D' en n = (m.run E D en n).map (Res.rmap (End.ren F)) := by
  unfold Machine.run
  have := runLoop_ren hD hD1 hE h hM en n n { m with frames := setFirstEnable en m.frames } (setFirst_live en m.frames hl)
  rw [← this]
  simp only [Machine.ren, setFirst_ren]

theorem new_live {S : Wasi} {P : Prog} (hM : MadeP P) {inst : Inst} {w : S.W} {f : Nat} {params : List Val} {m : Machine S}
    (hm : Machine.new P inst w f params = .ok m) : AllLive P m := by
  unfold Machine.new at hm
  split at hm
  · rename_i t code hf
    split at hm
    · cases hm
    · simp only [Res.ok_inj] at hm
      subst hm
      intro g hg
      simp only [List.mem_singleton] at hg
      subst hg
      exact ⟨⟨t, code, hf⟩, Nat.zero_le _, rfl, (hM f).noFall.first⟩
  · cases hm

theorem met_live {S : Wasi} {E : Env} (hM : MadeP E.P) {m : Machine S} (h : Met E m) : AllLive E.P m := by
  induction h with
  | start hm => exact new_live hM hm
  | round _ k ih => exact round_live .loop hM ih k
  | ckpt _ k ih => exact round_live .loop hM ih k
  | restored _ k ih =>
    intro g hg
    have hg' := List.mem_map_of_mem (f := fun f : Frame => (f.func, f.labels)) hg
    rw [k] at hg'
    obtain ⟨g', hg', he⟩ := List.mem_map.1 hg'
    simp only [Prod.mk.injEq] at he
    have h1 := ih g' hg'
    have h2 := h1.fn
    have h3 := h1.pc
    have h4 := h1.labels
    have h5 := h1.alive
    simp only [Frame.at, he.1, he.2] at h2 h3 h4 h5
    exact ⟨h2, h3, h4, h5⟩

theorem new_ren {S : Wasi} {F : Nat → Nat → Nat} {P Q : Prog} (h : ProgMoves F P Q) (inst : Inst) (w : S.W) (f : Nat)
    (params : List Val) : Machine.new (S := S) Q inst w f params = (Machine.new P inst w f params).rmap (Machine.ren F) := by
  unfold Machine.new
  cases hp : P.funcs[f]? with
  | none => rw [h.absent f hp]; rfl
  | some x =>
    obtain ⟨y, h1, h2⟩ := h.there f x hp
    rw [h1]
    cases h2 with
    | wasi => rfl
    | runtime hl ha hb =>
      simp only [hl, ha]
      split
      · rfl
      · simp only [Res.rmap, Machine.ren, List.map_cons, newFrame, Frame.ren, Label.ren, h.zero, List.map_nil]

/-! ## inserting unreachable code -/

theorem ren_id (i : Instr) : i.ren id = i := by
  cases i <;> simp [Instr.ren]

theorem Moves.id (body : List Instr) : Moves id body body :=
  ⟨fun _ _ => Iff.rfl, rfl, rfl, fun pc i h => by rw [ren_id]; exact h, fun _ _ _ _ _ => rfl⟩

theorem insC_get {p n : Nat} {body : List Instr} (hp : p ≤ body.length) {pc : Nat} {i : Instr} (h : body[pc]? = some i) :
    (insC p n body)[mv p n pc]? = some (i.ren (mv p n)) := by
  have e : (insC p n body) = (body.map (Instr.ren (mv p n))).take p ++ (List.replicate n .nop ++ (body.map (Instr.ren (mv p n))).drop p) := by
    simp [insC]
  have hm : (body.map (Instr.ren (mv p n)))[pc]? = some (i.ren (mv p n)) := by rw [List.getElem?_map, h]; rfl
  rw [e]
  by_cases hlt : pc < p
  · rw [mv_lt hlt, List.getElem?_append_left (by simp; omega), List.getElem?_take, if_pos hlt]
    exact hm
  · rw [mv_ge (by omega), List.getElem?_append_right (by simp; omega), List.getElem?_append_right (by simp; omega),
      List.getElem?_drop]
    rw [← hm]
    congr 1
    simp
    omega

theorem insC_nop {p n : Nat} {body : List Instr} (hp : p ≤ body.length) (hn : 0 < n) : (insC p n body)[p]? = some .nop := by
  have e : (insC p n body) = (body.map (Instr.ren (mv p n))).take p ++ (List.replicate n .nop ++ (body.map (Instr.ren (mv p n))).drop p) := by
    simp [insC]
  rw [e, List.getElem?_append_right (by simp; omega), List.getElem?_append_left (by simp; omega), List.getElem?_replicate]
  simp
  omega

theorem Moves.insC {p n : Nat} {body : List Instr} (h0 : 0 < p) (hp : p ≤ body.length) (hf : NoFall (insC p n body)) :
    Moves (mv p n) body (insC p n body) where
  mono _ _ := mv_le
  zero := mv_lt h0
  len := insC_length hp
  get _ _ h := insC_get hp h
  next pc i hi hs hn := by
    by_cases h1 : pc + 1 < p
    · rw [mv_lt h1, mv_lt (by omega)]
    · by_cases h2 : p ≤ pc
      · rw [mv_ge h2, mv_ge (by omega)]; omega
      · have hpc : pc + 1 = p := by omega
        rcases Nat.eq_zero_or_pos n with rfl | hpos
        · simp [mv]
        · exfalso
          have hnop := insC_nop hp hpos
          obtain ⟨j, h3, h4⟩ := hf.behind pc (by rw [hpc]; exact hnop)
          have h5 := insC_get (n := n) hp hi
          rw [mv_lt (by omega), h3] at h5
          cases h5
          rcases h4 with h4 | h4
          · have : stops (i.ren (mv p n)) = stops i := by cases i <;> rfl
            rw [this, hs] at h4; cases h4
          · cases i <;> simp only [Instr.ren, reduceCtorEq] at h4
            exact hn rfl

end Verif.Lemmas
