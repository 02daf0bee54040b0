import Verif.Spec.Storage
import Verif.Props.Safety
/-
C69: what is kept for running code belongs to calls in progress.
-/
namespace Verif.Props
open Verif.Model Verif.Spec Verif.Lemmas

/-- one offset per call, each window as large as its function needs and ending where the next begins -/
inductive Owned (P : Prog) : List Nat → List Offsets → (Cls → Nat) → Prop
  | nil {len : Cls → Nat} (h : ∀ c, len c = 0) : Owned P [] [] len
  | cons {f : Nat} {fs : List Nat} {o : Offsets} {os : List Offsets} {len : Cls → Nat} (h : ∀ c, len c = o c + needs P f c)
      (k : Owned P fs os o) : Owned P (f :: fs) (o :: os) len

theorem Owned.sum {P : Prog} {fs : List Nat} {os : List Offsets} {len : Cls → Nat} (h : Owned P fs os len) :
    os.length = fs.length ∧ ∀ c, len c = needed P fs c := by
  induction h with
  | nil h => exact ⟨rfl, fun c => by simp [needed, h c]⟩
  | cons h _ ih =>
    refine ⟨by simp [ih.1], fun c => ?_⟩
    rw [h c, ih.2 c]
    simp only [needed, List.map_cons, List.sum_cons]; omega

/-- the registers of a machine are those of its calls -/
def Housed {S : Wasi} (P : Prog) (m : Machine S) : Prop := Owned P (calls m) m.rf.frames m.rf.lens

theorem owned_shape {P : Prog} {fs : List Nat} {r r' : RegFile} (h : Owned P fs r.frames r.lens) (k : Writes r r') :
    Owned P fs r'.frames r'.lens := by
  rw [lens_writes k, k.shape.frames]; exact h

theorem owned_call {P : Prog} {fs : List Nat} {r : RegFile} (h : Owned P fs r.frames r.lens) {g : Nat} {W : Cls → Nat}
    (hW : ∀ c, needs P g c = W c) : Owned P (g :: fs) (r.saveOffsets W).frames (r.saveOffsets W).lens := by
  refine .cons (fun c => ?_) ?_
  · simp [RegFile.saveOffsets, RegFile.lens, hW]
  · exact h

theorem owned_ret {P : Prog} {f : Nat} {fs : List Nat} {r : RegFile} (h : Owned P (f :: fs) r.frames r.lens) :
    Owned P fs r.restoreOffsets.frames r.restoreOffsets.lens := by
  generalize hl : r.lens = len at h
  generalize ho : r.frames = os at h
  cases h with
  | @cons _ _ o os _ h k =>
    have h1 : r.restoreOffsets.frames = os := by simp [RegFile.restoreOffsets, ho]
    have h2 : r.restoreOffsets.lens = o := by
      funext c
      have := h c
      rw [← hl] at this
      simp only [RegFile.lens] at this
      simp only [RegFile.lens, RegFile.restoreOffsets, ho, List.length_take]
      omega
    rw [h1, h2]; exact k

theorem housed_round {S : Wasi} {E : Env} (hall : Allocated E.P) {D : Dispatcher} (hD : IsD E D) {en : Bool} {n : Nat}
    {m : Machine S} (hm : Housed E.P m) {r : Round S} (h : m.round E D en n = some (.ok r)) : Housed E.P r.m := by
  rcases round_inv hD h with ⟨_, rfl⟩ | ⟨f, fs, fin, hf, _, hk, hre⟩
  · exact hm
  · have hcalls : calls m = f.func :: fs.map (·.func) := by simp [calls, hf]
    have hw : Writes m.rf fin.d.vm.rf := hk.writes
    have hleave : ∀ d, calls (m.leave f d) = f.func :: fs.map (·.func) := fun d => by
      simp [calls, Machine.leave, hf]
    have hown : Owned E.P (f.func :: fs.map (·.func)) fin.d.vm.rf.frames fin.d.vm.rf.lens := by
      rw [← hcalls]; exact owned_shape hm hw
    have ret : ∀ d, fin.d = d → (m.leave f d).doReturn = .ok r → Housed E.P r.m := by
      intro d hd h
      rw [hd] at hown
      have hg := leave_frames (d := d) hf
      unfold Machine.doReturn at h
      rw [hg] at h
      cases fs with
      | nil =>
        simp only [Res.bind_eq_ok, Res.pure_eq, Res.ok_inj] at h
        obtain ⟨_, _, rfl⟩ := h
        exact owned_ret hown
      | cons c cs =>
        simp only [Res.bind_eq_ok, Res.pure_eq, Res.ok_inj] at h
        obtain ⟨vs, _, rf, hrf, rfl⟩ := h
        exact owned_shape (owned_ret hown) (Writes.setVals hrf)
    cases fin with
    | ckpt d =>
      simp only [Machine.react, Res.ok_inj] at hre
      subst hre
      show Owned E.P (calls (m.leave f d)) _ _
      rw [hleave]; exact hown
    | halt d => exact ret d rfl hre
    | yield y d =>
      cases y with
      | ret => exact ret d rfl hre
      | invoke g ps rs =>
        simp only [Machine.react, Machine.doInvoke] at hre
        split at hre
        · rename_i t code hc
          simp only [Res.bind_eq_ok, Res.pure_eq, Res.ok_inj] at hre
          obtain ⟨ls, _, rfl⟩ := hre
          obtain ⟨al, hal⟩ := Option.isSome_iff_exists.mp (hall _ _ _ hc)
          have hn : ∀ c, needs E.P g c = al c := fun c => by simp only [needs, hc, hal]
          have := owned_call hown (g := g) hn
          show Owned E.P (calls _) _ _
          simp only [Round.m, calls, leave_frames hf, hal, enterRegs, List.map_cons, newFrame]
          exact this
        · cases hre
        · cases hre
      | wasi id ps reg =>
        simp only [Machine.react, Machine.doWasi] at hre
        split at hre
        · simp only [Res.bind_eq_ok] at hre
          obtain ⟨⟨o, w⟩, _, hre⟩ := hre
          cases o with
          | none => cases hre
          | some res =>
            simp only at hre
            split at hre
            · simp only [Res.bind_eq_ok, Res.pure_eq, Res.ok_inj] at hre
              obtain ⟨rf, hrf, rfl⟩ := hre
              show Owned E.P (calls (m.leave f d)) _ _
              rw [hleave]; exact owned_shape hown (Writes.setVal hrf)
            · cases hre
              show Owned E.P (calls (m.leave f d)) _ _
              rw [hleave]; exact hown
        · cases hre

theorem allocated_of {P : Prog} (h : Preprocessed P) : Allocated P := by
  intro f t code hf
  obtain ⟨K, ops, hc⟩ := h f t code hf
  obtain ⟨_, W, hW⟩ := compileFn_parts hc
  rw [hW]; rfl

theorem setFirst_calls (en : Bool) : ∀ fs : List Frame, (setFirstEnable en fs).map (·.func) = fs.map (·.func)
  | [] => rfl
  | [_] => rfl
  | f :: g :: fs => by
    rw [setFirstEnable, List.map_cons, setFirst_calls en (g :: fs)]; rfl
    simp

theorem new_housed {S : Wasi} {P : Prog} (hall : Allocated P) {inst : Inst} {w : S.W} {f : Nat} {params : List Val} {m : Machine S}
    (hm : Machine.new P inst w f params = .ok m) : Housed P m := by
  unfold Machine.new at hm
  split at hm
  · rename_i t code hf
    split at hm
    · cases hm
    · simp only [Res.ok_inj] at hm
      subst hm
      obtain ⟨al, hal⟩ := Option.isSome_iff_exists.mp (hall _ _ _ hf)
      have hn : ∀ c, needs P f c = al c := fun c => by simp only [needs, hf, hal]
      have := owned_call (P := P) (fs := []) (r := RegFile.empty) (.nil (fun c => rfl)) hn
      show Owned P (calls _) _ _
      simp only [calls, hal, enterRegs, List.map_cons, newFrame, List.map_nil]
      exact this
  · cases hm

theorem lives_housed {S : Wasi} {P : Prog} (hall : Allocated P) {m : Machine S} (h : Lives P m) : Housed P m := by
  induction h with
  | start hm => exact new_housed hall hm
  | enable en _ ih =>
    show Owned P (calls _) _ _
    rw [calls, setFirst_calls]; exact ih
  | round _ hE hD k ih => subst hE; exact housed_round hall hD ih k
  | ckpt _ hE hD k ih => subst hE; exact housed_round hall hD ih k
  | restored _ hs hf hc hi k ih =>
    obtain ⟨st', i'', h1, h2, h3, _⟩ := restore_reproduces _ _ _ _ hs hf _ _ _ hc _ hi
    rw [k] at h1
    cases h1
    show Owned P (calls _) _ _
    simp only [Stacks.resume, calls, h3, h2, List.map_map]
    exact ih

theorem pair_of {E : Env} {D : Dispatcher} (h : IsD E D) : Pair E E D D := by cases h <;> constructor

theorem lives_live {S : Wasi} {P : Prog} (hM : MadeP P) {m : Machine S} (h : Lives P m) : AllLive P m := by
  induction h with
  | start hm => exact new_live hM hm
  | enable en _ ih => exact setFirst_live en _ ih
  | round _ hE hD k ih => subst hE; exact round_live (pair_of hD) hM ih k
  | ckpt _ hE hD k ih => subst hE; exact round_live (pair_of hD) hM ih k
  | restored _ hs hf hc hi k ih =>
    obtain ⟨st', i'', h1, h2, h3, _⟩ := restore_reproduces _ _ _ _ hs hf _ _ _ hc _ hi
    rw [k] at h1
    cases h1
    intro g hg
    simp only [Stacks.resume, h3, List.mem_map] at hg
    obtain ⟨g', hg', rfl⟩ := hg
    have := ih g' hg'
    exact ⟨this.fn, this.pc, this.labels, this.alive⟩

theorem enclosing_le (code : List Instr) : ∀ p, (enclosing code p).length ≤ brackets (code.take p)
  | 0 => by simp [enclosing]
  | p + 1 => by
    have ih := enclosing_le code p
    rw [enclosing, List.take_add_one]
    simp only [brackets, List.countP_append] at ih ⊢
    cases h : code[p]? with
    | none => simp only [Option.toList_none, List.countP_nil, Nat.add_zero]; exact ih
    | some i =>
      simp only [Option.toList_some]
      split
      · rename_i h; cases h; simp; exact ih
      · rename_i h; cases h; simp; exact ih
      · simp only [List.length_tail]; omega
      · omega

theorem enclosing_le_brackets (code : List Instr) (p : Nat) : (enclosing code p).length ≤ brackets code :=
  Nat.le_trans (enclosing_le code p) ((List.take_sublist p code).countP_le)

theorem reaches_keeps {E : Env} {code : List Instr} {d d' : DState} (h : Reaches E code d d') : KeepsStar d.vm d'.vm := by
  have trans : ∀ {a b c : VM}, KeepsStar a b → KeepsStar b c → KeepsStar a c := by
    intro a b c h1 h2
    induction h2 with
    | refl => exact h1
    | step _ k ih => exact .step ih k
  induction h with
  | refl => exact .refl _
  | step hp _ hs _ ih => exact trans (by rw [← poll_vm' hp]; exact .step (.refl _) (step_keeps hs)) ih

theorem keeps_locals {s s' : VM} (h : KeepsStar s s') : s'.locals.length = s.locals.length := by
  induction h with
  | refl => rfl
  | step _ k ih => rw [k.locals, ih]

/-- **C69.**  Whatever a preprocessed program has done so far — any number of calls made and returned from, in any number of processes,
checkpointed and restored, with either dispatcher — at every instruction it executes the registers it occupies are exactly those that
the functions being called declare, one window per call; each call keeps the locals it was given, and one label per block around the
place it has got to, at most as many as its body has blocks.  Nothing is left of calls that have returned. -/
theorem storage_is_that_of_active_calls {S : Wasi} {E : Env} (hp : Preprocessed E.P) {m : Machine S} (hm : Lives E.P m)
    {f : Frame} {fs : List Frame} (hf : m.frames = f :: fs) {d : DState} (hv : Reaches E (E.P.body f.func) (m.enter f) d) :
    d.vm.rf.frames.length = (calls m).length ∧
    (∀ c, (d.vm.rf.regs c).length = needed E.P (calls m) c) ∧
    d.vm.labels.length ≤ brackets (E.P.body f.func) + 1 ∧
    d.vm.locals.length = f.locals.length ∧
    ∀ g ∈ fs, g.labels.length ≤ brackets (E.P.body g.func) + 1 := by
  have h1 := (owned_shape (lives_housed (allocated_of hp) hm) (reaches_keeps hv).writes).sum
  have hl := lives_live (made_of hp) hm
  refine ⟨h1.1, h1.2, ?_, keeps_locals (reaches_keeps hv), fun g hg => ?_⟩
  · have := (hl f (by rw [hf]; exact List.mem_cons_self)).enter m
    have := labels_enclose (hp.routed f.func) hv this.labels
    rw [labelsAt_length this]
    have := enclosing_le_brackets (E.P.body f.func) d.vm.pc
    omega
  · have := (hl g (by rw [hf]; exact List.mem_cons_of_mem _ hg)).labels
    rw [labelsAt_length this]
    have := enclosing_le_brackets (E.P.body g.func) g.at
    omega

theorem done_frames {S : Wasi} {E : Env} {D : Dispatcher} (hD : IsD E D) {en : Bool} {n : Nat} {m m' : Machine S} {vs : List Val}
    (h : m.round E D en n = some (.ok (.done vs m'))) : m'.frames = [] := by
  rcases round_inv hD h with ⟨h1, h2⟩ | ⟨f, fs, fin, hf, _, _, hre⟩
  · cases h2; exact h1
  · have ret : ∀ d, (m.leave f d).doReturn = .ok (.done vs m') → m'.frames = [] := by
      intro d h
      unfold Machine.doReturn at h
      rw [leave_frames (d := d) hf] at h
      cases fs with
      | nil =>
        simp only [Res.bind_eq_ok, Res.pure_eq, Res.ok_inj] at h
        obtain ⟨_, _, h⟩ := h
        cases h; rfl
      | cons c cs =>
        simp only [Res.bind_eq_ok, Res.pure_eq, Res.ok_inj] at h
        obtain ⟨_, _, _, _, h⟩ := h
        cases h
    cases fin with
    | ckpt d => simp only [Machine.react, Res.ok_inj] at hre; cases hre
    | halt d => exact ret d hre
    | yield y d =>
      cases y with
      | ret => exact ret d hre
      | invoke g ps rs =>
        simp only [Machine.react, Machine.doInvoke] at hre
        split at hre
        · simp only [Res.bind_eq_ok, Res.pure_eq, Res.ok_inj] at hre
          obtain ⟨_, _, h⟩ := hre
          cases h
        · cases hre
        · cases hre
      | wasi id ps reg =>
        simp only [Machine.react, Machine.doWasi] at hre
        split at hre
        · simp only [Res.bind_eq_ok] at hre
          obtain ⟨⟨o, w⟩, _, hre⟩ := hre
          cases o with
          | none => cases hre
          | some res =>
            simp only at hre
            split at hre
            · simp only [Res.bind_eq_ok, Res.pure_eq, Res.ok_inj] at hre
              obtain ⟨_, _, h⟩ := hre
              cases h
            · cases hre
        · cases hre

/-- **C69**, the end: when the function that was started returns, no register, window or frame is left. -/
theorem nothing_left_behind {S : Wasi} {E : Env} (hp : Preprocessed E.P) {m m' : Machine S} (hm : Lives E.P m) {D : Dispatcher}
    (hD : IsD E D) {en : Bool} {n : Nat} {vs : List Val} (h : m.round E D en n = some (.ok (.done vs m'))) :
    m'.frames = [] ∧ m'.rf.frames = [] ∧ ∀ c, m'.rf.regs c = [] := by
  have hr := housed_round (allocated_of hp) hD (lives_housed (allocated_of hp) hm) h
  have hfr := done_frames hD h
  have := hr.sum
  simp only [Round.m, calls, hfr] at this
  exact ⟨hfr, List.eq_nil_of_length_eq_zero (by simpa using this.1), fun c => List.eq_nil_of_length_eq_zero (this.2 c)⟩

/-- **C69**, the bound: a program whose functions need at most `B` registers of a bank and that is never more than `n` calls deep
never occupies more than `n * B` of them, however long it runs. -/
theorem storage_bounded_by_depth {S : Wasi} {E : Env} (hp : Preprocessed E.P) {m : Machine S} (hm : Lives E.P m) {c : Cls} {B n : Nat}
    (hB : ∀ f, needs E.P f c ≤ B) (hn : m.frames.length ≤ n) : (m.rf.regs c).length ≤ n * B := by
  have h := (lives_housed (allocated_of hp) hm).sum.2 c
  have hs : ∀ fs : List Nat, needed E.P fs c ≤ fs.length * B := by
    intro fs
    induction fs with
    | nil => simp [needed]
    | cons f fs ih =>
      simp only [needed, List.map_cons, List.sum_cons, List.length_cons, Nat.succ_mul] at ih ⊢
      have := hB f
      omega
  have h1 := hs (calls m)
  rw [← h] at h1
  have h2 : (calls m).length * B ≤ n * B := Nat.mul_le_mul_right _ (by simpa [calls] using hn)
  exact Nat.le_trans h1 h2

namespace Ex

/-- the machine after `k` rounds -/
def after : Nat → Machine wasi → Machine wasi
  | 0, m => m
  | k + 1, m => match m.round env (tcoD env) false 100 with
    | some (.ok (.running m')) => after k m'
    | _ => m

theorem lives_after : ∀ (k : Nat) {m : Machine wasi}, Lives loaded m → Lives loaded (after k m)
  | 0, _, h => h
  | k + 1, m, h => by
    rw [after]
    split
    · rename_i m' hr
      exact lives_after k (.round (E := env) h rfl .tco hr)
    · exact h

/-- the hypotheses are met in the middle of the recursion: six calls are in progress, then two, then five again -/
example : [5, 9, 14].map (fun k => calls (after k (machine inst 4#32))) = [[1, 1, 1, 1, 1, 2], [1, 2], [1, 1, 1, 1, 2]] ∧
    ∀ k c, ((after k (machine inst 4#32)).rf.regs c).length = needed loaded (calls (after k (machine inst 4#32))) c :=
  ⟨by decide +kernel, fun k c =>
    (lives_housed (allocated_of (preprocessed_of load)) (lives_after k (.start (started inst 4#32)))).sum.2 c⟩

end Ex

end Verif.Props
