import Verif.Props.Nested
import Verif.Props.Regs
import Verif.Lemmas.Keeps
import Verif.Spec.Mem
/-
Properties of whole runs: C44 (cached memory pointer), C12/C13 lifted to runs, C20 (calls), type stability of globals,
tables and data segments.
-/
namespace Verif.Props
open Verif.Model Verif.Spec

/-- the two dispatchers of the code base -/
inductive IsD (E : Env) : Dispatcher → Prop
  | loop : IsD E (loopD E)
  | tco : IsD E (tcoD E)

/-- zero or more handlers -/
inductive KeepsStar : VM → VM → Prop
  | refl (s) : KeepsStar s s
  | step {s s1 s2} (h : KeepsStar s s1) (k : Keeps s1 s2) : KeepsStar s s2

theorem disp_keeps {E : Env} {D : Dispatcher} (hD : IsD E D) {n : Nat} {code : List Instr} {d : DState} {fin : Final}
    (h : D n code d = some (.ok fin)) : KeepsStar d.vm fin.d.vm := by
  have hs : ∀ s i o, KeepsStar d.vm s → step E.H E.P code.length s i = .ok o → KeepsStar d.vm o.vm :=
    fun s i o h1 h2 => .step h1 (step_keeps h2)
  cases hD with
  | loop =>
    exact loop_rel hs (fun s ls pc h => .step h (.inst (.refl _) rfl rfl rfl)) (poll_vm E) n d fin (.refl _) h
  | tco => exact tco_rel hs (poll_vm E) n d fin (.refl _) h

theorem KeepsStar.writes {s s' : VM} (h : KeepsStar s s') : Writes s.rf s'.rf := by
  induction h with
  | refl => exact .refl _
  | step _ k ih => exact ih.trans k.writes

theorem KeepsStar.ptr {s s' : VM} (h : KeepsStar s s') (hp : s.memPtr = s.inst.ptr) : s'.memPtr = s'.inst.ptr := by
  induction h with
  | refl => exact hp
  | step _ k ih => exact k.ptr ih

/-- types of globals, sizes of tables, number of data segments -/
def Inst.types (i : Inst) : List (Bool × Cls × Bool) × List Nat × Nat :=
  (i.globals.map Global.ty, i.tables.map List.length, i.datas.length)

theorem KeepsStar.types {s s' : VM} (h : KeepsStar s s') : Inst.types s'.inst = Inst.types s.inst := by
  induction h with
  | refl => rfl
  | step _ k ih => rw [← ih]; simp only [Inst.types, k.globals, k.tables, k.datas]

/-- a property of the memory that every instruction preserves holds after any number of them -/
theorem KeepsStar.mem {s s' : VM} (I : Mem → Prop) (hI : ∀ m m', I m → MemStep m m' → I m') (h : KeepsStar s s')
    (h0 : ∀ m, s.inst.mem = some m → I m) : ∀ m, s'.inst.mem = some m → I m := by
  induction h with
  | refl => exact h0
  | @step s1 s2 _ k ih =>
    intro m hm
    have := k.mem
    rw [hm] at this
    cases h1 : s1.inst.mem with
    | none => rw [h1] at this; exact absurd this (by simp [OptMemStep])
    | some m1 => rw [h1] at this; exact hI m1 m (ih m1 h1) this

/-! ### runs -/

/-- one round of `Runtime::run` that goes on -/
def Next {S : Wasi} (E : Env) (D : Dispatcher) (en : Bool) (m m' : Machine S) : Prop :=
  ∃ n, m.round E D en n = some (.ok (.running m'))

/-- machines met by `Runtime::run` starting from `m`, in the order they occur, up to and including the last one -/
inductive Reach {S : Wasi} (E : Env) (D : Dispatcher) (en : Bool) : Machine S → Machine S → Prop
  | refl (m) : Reach E D en m m
  | next {m m1 m2} (h : Reach E D en m m1) (k : Next E D en m1 m2) : Reach E D en m m2
  | done {m m1 m2 n vs} (h : Reach E D en m m1) (k : m1.round E D en n = some (.ok (.done vs m2))) : Reach E D en m m2
  | ckpt {m m1 m2 n} (h : Reach E D en m m1) (k : m1.round E D en n = some (.ok (.ckpt m2))) : Reach E D en m m2

/-- the machine a round leaves -/
def _root_.Verif.Model.Round.m {S : Wasi} : Round S → Machine S
  | .running m => m
  | .done _ m => m
  | .ckpt m => m

/-- a round is: run the dispatcher on the running frame, then react to how it ended -/
theorem round_inv {S : Wasi} {E : Env} {D : Dispatcher} {en : Bool} {n : Nat} {m : Machine S} {r : Round S}
    (hD : IsD E D) (h : m.round E D en n = some (.ok r)) :
    (m.frames = [] ∧ r = .done [] m) ∨ ∃ f fs fin, m.frames = f :: fs ∧
      D n (E.P.body f.func) (m.enter f) = some (.ok fin) ∧ KeepsStar (m.enter f).vm fin.d.vm ∧
      m.react E en f fin = .ok r := by
  unfold Machine.round at h
  split at h
  · rename_i hf
    simp only [Option.some.injEq, Res.ok_inj] at h
    exact .inl ⟨hf, h.symm⟩
  · rename_i f fs hf
    split at h
    · cases h
    · rename_i x hx
      simp only [Option.some.injEq, Res.bind_eq_ok] at h
      obtain ⟨fin, rfl, hr⟩ := h
      exact .inr ⟨f, fs, fin, hf, hx, disp_keeps hD hx, hr⟩

/-- the runtime's reaction changes the instance only through WASI calls, and then only the content of memory 0 -/
theorem react_inst {S : Wasi} {E : Env} {en : Bool} {m : Machine S} {f : Frame} {fin : Final} {r : Round S}
    (h : m.react E en f fin = .ok r) : r.m.inst = fin.d.vm.inst ∨
    ∃ mem id ps res w, fin.d.vm.inst.mem = some mem ∧ S.call id ps mem m.world = .ok (some res, w) ∧
      r.m.inst = { fin.d.vm.inst with mem := some w.1 } := by
  have ret : ∀ d, (m.leave f d).doReturn = .ok r → r.m.inst = d.vm.inst := by
    intro d h
    unfold Machine.doReturn at h
    split at h
    · cases h
    · split at h
      · simp only [Res.bind_eq_ok, Res.pure_eq, Res.ok_inj] at h
        obtain ⟨_, _, rfl⟩ := h; rfl
      · simp only [Res.bind_eq_ok, Res.pure_eq, Res.ok_inj] at h
        obtain ⟨_, _, _, _, rfl⟩ := h; rfl
  cases fin with
  | ckpt d => simp only [Machine.react, Res.ok_inj] at h; subst h; exact .inl rfl
  | halt d => exact .inl (ret d h)
  | yield y d =>
    cases y with
    | ret => exact .inl (ret d h)
    | invoke g ps rs =>
      simp only [Machine.react, Machine.doInvoke] at h
      split at h
      · simp only [Res.bind_eq_ok, Res.pure_eq, Res.ok_inj] at h
        obtain ⟨_, _, rfl⟩ := h; exact .inl rfl
      · cases h
      · cases h
    | wasi id ps reg =>
      simp only [Machine.react, Machine.doWasi] at h
      split at h
      · rename_i mem hw hm
        simp only [Res.bind_eq_ok] at h
        obtain ⟨⟨o, w⟩, hc, h⟩ := h
        cases o with
        | none => cases h
        | some res =>
          refine .inr ⟨mem, id, ps, res, w, hm, hc, ?_⟩
          simp only at h
          split at h
          · simp only [Res.bind_eq_ok, Res.pure_eq, Res.ok_inj] at h
            obtain ⟨_, _, rfl⟩ := h; rfl
          · cases h; rfl
      · cases h

/-! ### types of globals, tables, data segments -/

/-- C35/C36, whole runs: no execution ever changes the number, type or mutability of globals, the number and sizes of
tables, or the number of data segments. -/
theorem types_never_change {S : Wasi} {E : Env} {D : Dispatcher} (hD : IsD E D) {en : Bool} {m m' : Machine S}
    (h : Reach E D en m m') : Inst.types m'.inst = Inst.types m.inst := by
  have one : ∀ {m1 : Machine S} {n : Nat} {r : Round S}, m1.round E D en n = some (.ok r) →
      Inst.types r.m.inst = Inst.types m1.inst := by
    intro m1 n r hr
    rcases round_inv hD hr with ⟨_, rfl⟩ | ⟨f, fs, fin, _, _, hk, hre⟩
    · rfl
    · have h1 := hk.types
      have h2 : (m1.enter f).vm.inst = m1.inst := rfl
      rw [h2] at h1
      rcases react_inst hre with h3 | ⟨mem, id, ps, res, w, _, _, h3⟩
      · rw [h3, h1]
      · rw [h3, ← h1]; rfl
  induction h with
  | refl => rfl
  | next _ k ih => obtain ⟨n, k⟩ := k; exact (one k).trans ih
  | done _ k ih => exact (one k).trans ih
  | ckpt _ k ih => exact (one k).trans ih

/-! ### C12 for runs -/

/-- WASI calls write into memory but do not resize it -/
def WasiKeepsSize (S : Wasi) : Prop := ∀ id ps mem w res mem' w',
  S.call id ps mem w = .ok (res, mem', w') → mem'.data.length = mem.data.length ∧ mem'.max = mem.max

/-- `data` is a whole number of pages below 4 GiB -/
def Paged (m : Mem) : Prop := m.data.length % pageSize = 0 ∧ m.data.length < 2 ^ 32

theorem Paged.step {m m' : Mem} (h : Paged m) (k : MemStep m m') : Paged m' := by
  rcases k with ⟨k, _⟩ | ⟨delta, _, rfl⟩
  · simpa only [Paged, k] using h
  · simp only [Mem.grow]
    split
    · exact h
    · split
      · exact h
      · simp only [Paged, resize, List.length_append, List.length_take, List.length_replicate, BitVec.toNat_mul, pageSize]
        rw [show (65536#32).toNat = 65536 from rfl]
        constructor <;> omega

theorem mem_inv {S : Wasi} {E : Env} {D : Dispatcher} (hD : IsD E D) {en : Bool} {m m' : Machine S}
    (h : Reach E D en m m') (I : Mem → Prop) (hI : ∀ m m', I m → MemStep m m' → I m') (hS : WasiKeepsSize S)
    (h0 : ∀ mem, m.inst.mem = some mem → I mem) : ∀ mem, m'.inst.mem = some mem → I mem := by
  have one : ∀ {m1 : Machine S} {n : Nat} {r : Round S}, m1.round E D en n = some (.ok r) →
      (∀ mem, m1.inst.mem = some mem → I mem) → ∀ mem, r.m.inst.mem = some mem → I mem := by
    intro m1 n r hr hm
    rcases round_inv hD hr with ⟨_, rfl⟩ | ⟨f, fs, fin, _, _, hk, hre⟩
    · exact hm
    · have h1 := hk.mem I hI hm
      rcases react_inst hre with h3 | ⟨mem, id, ps, res, w, h4, h5, h3⟩
      · rw [h3]; exact h1
      · rw [h3]
        intro mem' hmem'
        cases hmem'
        exact hI _ _ (h1 mem h4) (.inl (hS _ _ _ _ _ _ _ h5))
  induction h with
  | refl => exact h0
  | next _ k ih => obtain ⟨n, k⟩ := k; exact one k ih
  | done _ k ih => exact one k ih
  | ckpt _ k ih => exact one k ih

/-- C12 for whole runs (every instruction, call and WASI call): a memory that starts as whole pages below 4 GiB stays
so, hence `memory.size` always is its exact length in pages. -/
theorem run_memory_paged_partial {S : Wasi} {E : Env} {D : Dispatcher} (hD : IsD E D) {en : Bool} {m m' : Machine S}
    (h : Reach E D en m m') (hS : WasiKeepsSize S) (h0 : ∀ mem, m.inst.mem = some mem → Paged mem) (mem : Mem)
    (hm : m'.inst.mem = some mem) : Paged mem ∧ mem.size.toNat * pageSize = mem.data.length := by
  have hp := mem_inv hD h Paged (fun _ _ => Paged.step) hS h0 mem hm
  refine ⟨hp, ?_⟩
  obtain ⟨h1, h2⟩ := hp
  simp only [pageSize] at *
  simp only [Mem.size, BitVec.toNat_ofNat]; omega

/-! ### C44 -/

/-- dispatcher states met while a body is executed: instruction by instruction, and (loop dispatcher only) label
unwinding past the end of the body -/
inductive Visits (E : Env) (code : List Instr) : DState → DState → Prop
  | refl (d) : Visits E code d d
  | step {d d1 d2 i vm} (hv : Visits E code d d1) (h : poll E d1 = (false, d2)) (hi : code[d2.vm.pc]? = some i)
      (hs : step E.H E.P code.length d2.vm i = .ok (.cont vm)) : Visits E code d { d2 with vm := vm }
  | unwind {d d1 d2 l ls} (hv : Visits E code d d1) (h : poll E d1 = (false, d2)) (hi : code[d2.vm.pc]? = none)
      (hl : d2.vm.labels = l :: ls) (hne : ls ≠ []) (hc : ¬ (l.returnIp ≤ d2.vm.pc ∧ l.isLoop = false)) : Visits E code d { d2 with vm := { d2.vm with
        labels := ls, pc := if l.isLoop then d2.vm.pc + 1 else l.returnIp } }

theorem visits_keeps {E : Env} {code : List Instr} {d d' : DState} (h : Visits E code d d') : KeepsStar d.vm d'.vm := by
  induction h with
  | refl => exact .refl _
  | step _ h _ hs ih => rw [← poll_vm' h] at ih; exact .step ih (step_keeps hs)
  | unwind _ h _ _ _ _ ih => rw [← poll_vm' h] at ih; exact .step ih (.inst (.refl _) rfl rfl rfl)

/-- the running frame's cached memory pointer is the memory's current address -/
def PtrOk {S : Wasi} (m : Machine S) : Prop := ∀ f fs, m.frames = f :: fs → f.memPtr = m.inst.ptr

theorem ptr_round {S : Wasi} {E : Env} {D : Dispatcher} (hD : IsD E D) {en : Bool} {n : Nat} {m : Machine S}
    {r : Round S} (h : m.round E D en n = some (.ok r)) (hp : PtrOk m) : PtrOk r.m := by
  rcases round_inv hD h with ⟨_, rfl⟩ | ⟨f, fs, fin, hf, _, hk, hre⟩
  · exact hp
  · have hptr := hk.ptr (hp f fs hf)
    have ret : ∀ d, (m.leave f d).doReturn = .ok r → PtrOk r.m := by
      intro d h
      unfold Machine.doReturn at h
      split at h
      · cases h
      · split at h
        · simp only [Res.bind_eq_ok, Res.pure_eq, Res.ok_inj] at h
          obtain ⟨_, _, rfl⟩ := h
          intro f fs hf; cases hf
        · simp only [Res.bind_eq_ok, Res.pure_eq, Res.ok_inj] at h
          obtain ⟨_, _, _, _, rfl⟩ := h
          intro f fs hf; cases hf; rfl
    have leave : ∀ d, d.vm.memPtr = d.vm.inst.ptr → PtrOk (m.leave f d) := by
      intro d hd f' fs' hf'
      simp only [Machine.leave] at hf' ⊢
      cases hf'; exact hd
    cases fin with
    | ckpt d => simp only [Machine.react, Res.ok_inj] at hre; subst hre; exact leave d hptr
    | halt d => exact ret d hre
    | yield y d =>
      cases y with
      | ret => exact ret d hre
      | invoke g ps rs =>
        simp only [Machine.react, Machine.doInvoke] at hre
        split at hre
        · simp only [Res.bind_eq_ok, Res.pure_eq, Res.ok_inj] at hre
          obtain ⟨_, _, rfl⟩ := hre
          intro f fs hf; cases hf; rfl
        · cases hre
        · cases hre
      | wasi id ps reg =>
        simp only [Machine.react, Machine.doWasi] at hre
        split at hre
        · rename_i mem hw hm
          simp only [Res.bind_eq_ok] at hre
          obtain ⟨⟨o, w⟩, hc, hre⟩ := hre
          cases o with
          | none => cases hre
          | some res =>
            simp only at hre
            have key : ∀ rf : RegFile, PtrOk (S := S)
                ⟨rf, (m.leave f d).frames, { (m.leave f d).inst with mem := some w.1 }, w.2, (m.leave f d).looks⟩ := by
              intro rf f' fs' hf'
              have := leave d hptr f' fs' hf'
              rw [this]
              simp only [Inst.ptr, hm, Option.map_some]
            split at hre
            · simp only [Res.bind_eq_ok, Res.pure_eq, Res.ok_inj] at hre
              obtain ⟨_, _, rfl⟩ := hre; exact key _
            · cases hre; exact key _
        · cases hre

theorem ptr_reach {S : Wasi} {E : Env} {D : Dispatcher} (hD : IsD E D) {en : Bool} {m m' : Machine S}
    (h : Reach E D en m m') (hp : PtrOk m) : PtrOk m' := by
  induction h with
  | refl => exact hp
  | next _ k ih => obtain ⟨n, k⟩ := k; exact ptr_round hD k ih
  | done _ k ih => exact ptr_round hD k ih
  | ckpt _ k ih => exact ptr_round hD k ih

theorem setFirst_ptr {S : Wasi} {m : Machine S} (en : Bool) (hp : PtrOk m) :
    PtrOk { m with frames := setFirstEnable en m.frames } := by
  intro f fs hf
  simp only at hf
  match hm : m.frames with
  | [] => rw [hm] at hf; cases hf
  | [g] => rw [hm] at hf; cases hf; exact hp g [] hm
  | g :: g' :: gs => rw [hm] at hf; cases hf; exact hp _ _ hm

theorem new_ptr {S : Wasi} {P : Prog} {inst : Inst} {w : S.W} {f : Nat} {ps : List Val} {m : Machine S}
    (h : Machine.new P inst w f ps = .ok m) : PtrOk m := by
  unfold Machine.new at h
  split at h
  · split at h
    · cases h
    · cases h; intro f fs hf; cases hf; rfl
  · cases h

/-- C44.  In every state met while running any function of any program — whatever grows the memory, in whichever frame —
an access through the cached memory pointer goes to the current memory: the raw pointer is never stale. -/
theorem memory_pointer_never_stale {S : Wasi} {E : Env} {D : Dispatcher} (hD : IsD E D) {en : Bool}
    {inst : Inst} {w : S.W} {f0 : Nat} {ps : List Val} {m0 m : Machine S} (hnew : Machine.new E.P inst w f0 ps = .ok m0)
    (hr : Reach E D en { m0 with frames := setFirstEnable en m0.frames } m) {f : Frame} {fs : List Frame}
    (hf : m.frames = f :: fs) {d : DState} (hv : Visits E (E.P.body f.func) (m.enter f) d) {mem : Mem}
    (hm : d.vm.inst.mem = some mem) : d.vm.rawMem = .ok mem := by
  have h1 := ptr_reach hD hr (setFirst_ptr en (new_ptr hnew)) f fs hf
  have h2 := (visits_keeps hv).ptr h1
  unfold VM.rawMem
  rw [hm]
  simp [h2, Inst.ptr, hm]

/-! ### C13 / C20 -/

/-- the cached register window is that of the running frame -/
def CacheOk (r : RegFile) : Prop := r.cached = match r.frames with | [] => fun _ => 0 | o :: _ => o

theorem Writes.above {r0 r r' : RegFile} {n : Nat} (h : Above r0 r n) (k : Writes r r') : Above r0 r' n := by
  induction k with
  | refl => exact h
  | step hs _ ih => exact ih (h.set hs)

theorem Above.call {r0 r : RegFile} {n : Nat} (h : Above r0 r n) (a : Cls → Nat) : Above r0 (r.saveOffsets a) (n + 1) := by
  obtain ⟨extra, h1, h2, h3, h4⟩ := h.frames
  refine ⟨?_, (fun c => (r.regs c).length) :: extra, by simp [h1], by simp [RegFile.saveOffsets, h2], ?_, rfl⟩
  · intro c
    simp only [RegFile.saveOffsets]
    rw [List.take_append_of_le_length (h.len c)]; exact h.pre c
  · intro o ho c
    rcases List.mem_cons.1 ho with rfl | ho
    · exact h.len c
    · exact h3 o ho c

theorem Above.ret {r0 r : RegFile} {n : Nat} (h : Above r0 r (n + 1)) : Above r0 r.restoreOffsets n := by
  obtain ⟨extra, h1, h2, h3, h4⟩ := h.frames
  cases extra with
  | nil => simp at h1
  | cons o rest =>
    simp only [RegFile.restoreOffsets, h2, List.cons_append]
    refine ⟨?_, rest, by simpa using h1, rfl, fun o' ho' => h3 o' (by simp [ho']), ?_⟩
    · intro c
      simp only
      rw [List.take_take, Nat.min_eq_left (h3 o (by simp) c)]
      exact h.pre c
    · cases rest <;> rfl

theorem Above.back {r0 r : RegFile} (h : Above r0 r 0) (hc : CacheOk r0) : r.restoreOffsets = r0 := by
  obtain ⟨extra, h1, h2, h3, h4⟩ := h.frames
  have : extra = [] := List.eq_nil_of_length_eq_zero h1
  subst this
  apply Verif.Lemmas.RegFile.ext'
  · intro c; simp only [RegFile.restoreOffsets, h2, List.nil_append]; exact h.pre c
  · simp [RegFile.restoreOffsets, h2]
  · simp only [RegFile.restoreOffsets, h2, List.nil_append]; exact hc.symm

/-- every defined function has a register allocation (the preprocessor always records one) -/
def Allocated (P : Prog) : Prop := ∀ (f : Nat) (t : FuncType) (code : Code),
  P.funcs[f]? = some (.runtime t code) → code.alloc.isSome

/-- rounds during which more than `k` frames are active -/
inductive Within {S : Wasi} (E : Env) (D : Dispatcher) (en : Bool) (k : Nat) : Machine S → Machine S → Prop
  | refl (m) : Within E D en k m m
  | next {m m1 m2} (h : Within E D en k m m1) (n : Next E D en m1 m2) (hk : k < m2.frames.length) : Within E D en k m m2

/-- state during a call made from the frames `callers` with register file `r0` -/
def Inside' {S : Wasi} (r0 : RegFile) (callers : List Frame) (m : Machine S) : Prop :=
  ∃ f ext, m.frames = f :: ext ++ callers ∧ Above r0 m.rf ext.length

/-- the running frame `f` of `m` finishes (end of its body or `return`) in state `d` -/
def Leaves {S : Wasi} (E : Env) (D : Dispatcher) (m : Machine S) (f : Frame) (d : DState) : Prop :=
  ∃ n, D n (E.P.body f.func) (m.enter f) = some (.ok (.halt d)) ∨
    D n (E.P.body f.func) (m.enter f) = some (.ok (.yield .ret d))

/-- what one round does to frames and registers -/
theorem round_frames {S : Wasi} {E : Env} (hall : Allocated E.P) {D : Dispatcher} (hD : IsD E D) {en : Bool}
    {m m' : Machine S} (h : Next E D en m m') : ∃ f fs, m.frames = f :: fs ∧
    ((∃ g c a al, m'.frames = g :: c :: fs ∧ Writes m.rf a ∧ m'.rf = RegFile.saveOffsets a al) ∨
     (∃ g, m'.frames = g :: fs ∧ Writes m.rf m'.rf) ∨
     (∃ c cs d vs, fs = c :: cs ∧ m'.frames = { c with memPtr := m'.inst.ptr, resultRegs := [] } :: cs ∧
        Writes m.rf d.vm.rf ∧ Leaves E D m f d ∧ d.vm.rf.getVals d.vm.retRegs = .ok vs ∧
        d.vm.rf.restoreOffsets.setVals c.resultRegs vs = .ok m'.rf)) := by
  obtain ⟨n, h⟩ := h
  rcases round_inv hD h with ⟨_, h⟩ | ⟨f, fs, fin, hf, hdisp, hk, hre⟩
  · cases h
  · refine ⟨f, fs, hf, ?_⟩
    have hw : Writes m.rf fin.d.vm.rf := hk.writes
    have hlf : ∀ d, ∃ g, (m.leave f d).frames = g :: fs ∧ g.resultRegs = f.resultRegs :=
      fun d => ⟨_, leave_frames hf, rfl⟩
    have ret : ∀ d, Writes m.rf d.vm.rf → Leaves E D m f d → (m.leave f d).doReturn = .ok (.running m') →
        ∃ c cs d vs, fs = c :: cs ∧ m'.frames = { c with memPtr := m'.inst.ptr, resultRegs := [] } :: cs ∧
        Writes m.rf d.vm.rf ∧ Leaves E D m f d ∧ d.vm.rf.getVals d.vm.retRegs = .ok vs ∧
        d.vm.rf.restoreOffsets.setVals c.resultRegs vs = .ok m'.rf := by
      intro d hd hle h
      have hg := leave_frames (d := d) hf
      unfold Machine.doReturn at h
      rw [hg] at h
      cases fs with
      | nil =>
        simp only [Res.bind_eq_ok, Res.pure_eq, Res.ok_inj] at h
        obtain ⟨_, _, h⟩ := h; cases h
      | cons c cs =>
        simp only [Res.bind_eq_ok, Res.pure_eq, Res.ok_inj] at h
        obtain ⟨vs, hvs, rf, hrf, h⟩ := h
        cases h
        exact ⟨c, cs, d, vs, rfl, rfl, hd, hle, hvs, hrf⟩
    cases fin with
    | ckpt d => simp only [Machine.react, Res.ok_inj] at hre; cases hre
    | halt d => exact .inr (.inr (ret d hw ⟨n, .inl hdisp⟩ hre))
    | yield y d =>
      cases y with
      | ret => exact .inr (.inr (ret d hw ⟨n, .inr hdisp⟩ hre))
      | invoke g ps rs =>
        simp only [Machine.react, Machine.doInvoke] at hre
        split at hre
        · rename_i t code hc
          simp only [Res.bind_eq_ok, Res.pure_eq, Res.ok_inj] at hre
          obtain ⟨ls, _, hre⟩ := hre
          obtain ⟨al, hal⟩ := Option.isSome_iff_exists.mp (hall _ _ _ hc)
          obtain ⟨g', hg', _⟩ := hlf d
          cases hre
          refine .inl ⟨newFrame (m.leave f d).inst g t (ps ++ ls) en, { g' with resultRegs := rs }, d.vm.rf, al, ?_, hw, ?_⟩
          · simp only [hg']
          · simp only [enterRegs, hal]; rfl
        · cases hre
        · cases hre
      | wasi id ps reg =>
        simp only [Machine.react, Machine.doWasi] at hre
        split at hre
        · simp only [Res.bind_eq_ok] at hre
          obtain ⟨⟨o, w⟩, hc, hre⟩ := hre
          obtain ⟨g', hg', _⟩ := hlf d
          cases o with
          | none => cases hre
          | some res =>
            simp only at hre
            split at hre
            · simp only [Res.bind_eq_ok, Res.pure_eq, Res.ok_inj] at hre
              obtain ⟨rf, hrf, hre⟩ := hre
              cases hre
              exact .inr (.inl ⟨g', hg', Writes.trans hw (Writes.setVal hrf)⟩)
            · cases hre
              exact .inr (.inl ⟨g', hg', hw⟩)
        · cases hre

theorem inside_next {S : Wasi} {E : Env} (hall : Allocated E.P) {D : Dispatcher} (hD : IsD E D) {en : Bool}
    {r0 : RegFile} {callers : List Frame} {m m' : Machine S} (hi : Inside' r0 callers m) (h : Next E D en m m')
    (hk : callers.length < m'.frames.length) : Inside' r0 callers m' := by
  obtain ⟨f0, ext, hf0, hab⟩ := hi
  obtain ⟨f, fs, hf, hc⟩ := round_frames hall hD h
  rw [hf] at hf0
  simp only [List.cons_append, List.cons.injEq] at hf0
  obtain ⟨rfl, hfs⟩ := hf0
  rcases hc with ⟨g, c, a, al, h1, h2, h3⟩ | ⟨g, h1, h2⟩ | ⟨c, cs, d, vs, h1, h2, h3, h6, h4, h5⟩
  · refine ⟨g, c :: ext, by rw [h1, hfs]; rfl, ?_⟩
    rw [h3]; exact (Writes.above hab h2).call al
  · exact ⟨g, ext, by rw [h1, hfs]; rfl, Writes.above hab h2⟩
  · cases ext with
    | nil =>
      rw [h2] at hk
      simp only [List.nil_append] at hfs
      rw [← hfs, h1] at hk
      simp at hk
    | cons e es =>
      rw [h1] at hfs
      simp only [List.cons_append, List.cons.injEq] at hfs
      obtain ⟨rfl, rfl⟩ := hfs
      exact ⟨_, es, by rw [h2]; rfl, Writes.above (Writes.above hab h3).ret (Writes.setVals h5)⟩

/-- C13/C20, a whole call.  `m` is about to run a callee: its caller frames are `c :: cs`, the caller's register file was
`r0` and a window was opened on top of it.  Whatever happens inside (nested calls to any depth, WASI calls, memory growth,
both dispatchers), when control first comes back to the caller, its frame is the one it had — same function, locals,
labels, program counter — with only the result registers of the call written, in order, by the returned values, and
every other register (of this and all outer frames) unchanged. -/
theorem call_returns_to_caller {S : Wasi} {E : Env} (hall : Allocated E.P) {D : Dispatcher} (hD : IsD E D) {en : Bool}
    {r0 : RegFile} (hc : CacheOk r0) {al : Cls → Nat} {g c : Frame} {cs : List Frame} {m m1 m2 : Machine S}
    (hm : m.frames = g :: c :: cs) (hrf : m.rf = r0.saveOffsets al)
    (hw : Within E D en (cs.length + 1) m m1) (hn : Next E D en m1 m2) (hback : m2.frames.length = cs.length + 1) :
    m2.frames = { c with memPtr := m2.inst.ptr, resultRegs := [] } :: cs ∧
    ∃ f fs d vs, m1.frames = f :: fs ∧ Leaves E D m1 f d ∧ d.vm.rf.getVals d.vm.retRegs = .ok vs ∧
      r0.setVals c.resultRegs vs = .ok m2.rf := by
  have start : Inside' r0 (c :: cs) m := by
    refine ⟨g, [], hm, ?_⟩
    rw [hrf]
    refine ⟨?_, [], rfl, rfl, by simp, rfl⟩
    intro x; simp [RegFile.saveOffsets]
  have mid : Inside' r0 (c :: cs) m1 := by
    clear hn
    induction hw with
    | refl => exact start
    | next _ n hk ih => exact inside_next hall hD ih n (by simpa using hk)
  obtain ⟨f0, ext, hf0, hab⟩ := mid
  obtain ⟨f, fs, hf, hcase⟩ := round_frames hall hD hn
  rw [hf] at hf0
  simp only [List.cons_append, List.cons.injEq] at hf0
  obtain ⟨rfl, hfs⟩ := hf0
  rcases hcase with ⟨g, c, a, al, h1, h2, h3⟩ | ⟨g, h1, h2⟩ | ⟨c', cs', d, vs, h1, h2, h3, h6, h4, h5⟩
  · rw [h1, hfs] at hback; simp at hback; omega
  · rw [h1, hfs] at hback; simp at hback; omega
  · rw [h2] at hback
    rw [h1] at hfs
    have hl := congrArg List.length hfs
    simp only [List.length_cons, List.length_append] at hl hback
    have : ext = [] := List.eq_nil_of_length_eq_zero (by omega)
    subst this
    simp only [List.nil_append, List.cons.injEq] at hfs
    obtain ⟨rfl, rfl⟩ := hfs
    refine ⟨h2, f, _, d, vs, hf, h6, h4, ?_⟩
    rwa [(Writes.above hab h3).back hc] at h5

end Verif.Props
