import Verif.Props.Regs
/-
C15 (and the allocator part of C14): the register allocator used while preprocessing a function.
A history is a sequence of pushes, type-correct pops, and block entries/exits (save/restore). `live` records the
registers handed out by `push` for the values that are on the operand stack, top first.
-/
namespace Verif.Props
open Verif.Model Verif.Lemmas

/-- operations the preprocessor performs on the allocator -/
inductive AOp
  | push (c : Cls)
  | pop (c : Cls)
  | enter
  | leave

/-- allocator state, registers of the live operand-stack values (top first), saved states of the open blocks together
with the operand-stack height at their entry -/
structure ASt where
  a : Alloc
  live : List Reg
  saved : List (Alloc.Saved × Nat)

/-- operand-stack height of the innermost open block: code inside the block cannot pop below it -/
def floorOf : List (Alloc.Saved × Nat) → Nat
  | [] => 0
  | (_, n) :: _ => n

def ASt.floor (s : ASt) : Nat := floorOf s.saved

/-- One operation; `none` when it is not something valid WebAssembly can ask for (popping a value of another type or
below the current block). -/
def ASt.step (s : ASt) : AOp → Option ASt
  | .push c => some { s with a := (s.a.push c).2, live := (s.a.push c).1 :: s.live }
  | .pop c =>
    if s.a.types.head? = some c ∧ s.floor < s.live.length then
      some { s with a := (s.a.pop c).2, live := s.live.tail }
    else none
  | .enter => some { s with saved := (s.a.save, s.live.length) :: s.saved }
  | .leave =>
    match s.saved with
    | [] => none
    | (sv, n) :: rest => some { a := s.a.restore sv, live := s.live.drop (s.live.length - n), saved := rest }

def ASt.run (s : ASt) : List AOp → Option ASt
  | [] => some s
  | op :: ops => (s.step op).bind (ASt.run · ops)

/-- state at the start of a function body -/
def ASt.start (locals : List (Nat × Cls)) : ASt := { a := Alloc.new locals, live := [], saved := [] }

/-- registers of a stack of types (top first) above the base depths -/
def regsOf (base : Cls → Nat) : List Cls → List Reg
  | [] => []
  | c :: ts => Alloc.mkReg c (base c + ts.count c) :: regsOf base ts

theorem regsOf_length (base : Cls → Nat) (ts : List Cls) : (regsOf base ts).length = ts.length := by
  induction ts with
  | nil => rfl
  | cons c ts ih => simp [regsOf, ih]

theorem regsOf_drop (base : Cls → Nat) (ts : List Cls) (k : Nat) : (regsOf base ts).drop k = regsOf base (ts.drop k) := by
  induction ts generalizing k with
  | nil => simp [regsOf]
  | cons c ts ih =>
    cases k with
    | zero => rfl
    | succ k => simp [regsOf, ih]

theorem regsOf_mem (base : Cls → Nat) (ts : List Cls) (h : ∀ c, base c + ts.count c ≤ 65536) (r : Reg)
    (hr : r ∈ regsOf base ts) : base r.cls ≤ r.idx ∧ r.idx < base r.cls + ts.count r.cls := by
  induction ts with
  | nil => simp [regsOf] at hr
  | cons c ts ih =>
    simp only [regsOf, List.mem_cons] at hr
    have hc := h c
    rw [List.count_cons_self] at hc
    rcases hr with rfl | hr
    · simp only [Alloc.mkReg]
      rw [Nat.mod_eq_of_lt (by omega), List.count_cons_self]; omega
    · have := ih (fun d => by have := h d; have := List.count_le_count_cons (a := d) (b := c) (l := ts); omega) hr
      have := List.count_le_count_cons (a := r.cls) (b := c) (l := ts)
      omega

theorem regsOf_nodup (base : Cls → Nat) (ts : List Cls) (h : ∀ c, base c + ts.count c ≤ 65536) :
    (regsOf base ts).Nodup := by
  induction ts with
  | nil => simp [regsOf]
  | cons c ts ih =>
    have h' : ∀ d, base d + ts.count d ≤ 65536 := fun d => by
      have := h d; have := List.count_le_count_cons (a := d) (b := c) (l := ts); omega
    rw [regsOf, List.nodup_cons]
    refine ⟨?_, ih h'⟩
    intro hm
    have h1 := regsOf_mem base ts h' _ hm
    have hc := h c
    rw [List.count_cons_self] at hc
    simp only [Alloc.mkReg] at h1
    rw [Nat.mod_eq_of_lt (by omega)] at h1
    omega

/-- what is known about the saved block states -/
def SavedOk (base : Cls → Nat) : List Cls → List (Alloc.Saved × Nat) → Prop
  | _, [] => True
  | ts, (sv, n) :: rest =>
    n ≤ ts.length ∧ sv.typesLen = n ∧ (∀ c, sv.depth c = base c + (ts.drop (ts.length - n)).count c) ∧
      SavedOk base (ts.drop (ts.length - n)) rest

structure AInv (base : Cls → Nat) (s : ASt) : Prop where
  live : s.live = regsOf base s.a.types
  depth : ∀ c, s.a.depth c = base c + s.a.types.count c
  maxd : ∀ c, s.a.depth c ≤ s.a.maxDepth c
  saved : SavedOk base s.a.types s.saved

theorem SavedOk.push {base : Cls → Nat} {ts : List Cls} {sv : List (Alloc.Saved × Nat)} (c : Cls)
    (h : SavedOk base ts sv) : SavedOk base (c :: ts) sv := by
  cases sv with
  | nil => trivial
  | cons p rest =>
    obtain ⟨s, n⟩ := p
    obtain ⟨h1, h2, h3, h4⟩ := h
    have e : (c :: ts).drop ((c :: ts).length - n) = ts.drop (ts.length - n) := by
      rw [List.length_cons, show ts.length + 1 - n = (ts.length - n) + 1 by omega, List.drop_succ_cons]
    refine ⟨by simp; omega, h2, ?_, ?_⟩
    · rw [e]; exact h3
    · rw [e]; exact h4

theorem SavedOk.pop {base : Cls → Nat} {ts : List Cls} {sv : List (Alloc.Saved × Nat)} (c : Cls)
    (h : SavedOk base (c :: ts) sv) (hf : floorOf sv < (c :: ts).length) :
    SavedOk base ts sv := by
  cases sv with
  | nil => trivial
  | cons p rest =>
    obtain ⟨s, n⟩ := p
    obtain ⟨h1, h2, h3, h4⟩ := h
    simp [floorOf] at hf
    have e : (c :: ts).drop ((c :: ts).length - n) = ts.drop (ts.length - n) := by
      rw [List.length_cons, show ts.length + 1 - n = (ts.length - n) + 1 by omega, List.drop_succ_cons]
    rw [e] at h3 h4
    exact ⟨by omega, h2, h3, h4⟩

theorem AInv.step {base : Cls → Nat} {s s' : ASt} {op : AOp} (h : AInv base s) (hs : s.step op = some s') :
    AInv base s' := by
  cases op with
  | push c =>
    simp only [ASt.step, Option.some.injEq] at hs; subst hs
    refine ⟨?_, ?_, ?_, ?_⟩
    · simp only [Alloc.push, regsOf, h.live, h.depth c]
    · intro d
      simp only [Alloc.push]
      by_cases hd : d = c
      · subst hd; simp [h.depth d]; omega
      · rw [upd_ne _ _ _ _ hd, List.count_cons_of_ne (Ne.symm hd), h.depth d]
    · intro d
      simp only [Alloc.push]
      by_cases hd : d = c
      · subst hd; simp; omega
      · rw [upd_ne _ _ _ _ hd, upd_ne _ _ _ _ hd]; exact h.maxd d
    · exact h.saved.push c
  | pop c =>
    simp only [ASt.step] at hs
    split at hs
    · rename_i hc
      simp only [Option.some.injEq] at hs; subst hs
      obtain ⟨hc1, hc2⟩ := hc
      cases ht : s.a.types with
      | nil => simp [ht] at hc1
      | cons d ts =>
        simp only [ht, List.head?_cons, Option.some.injEq] at hc1
        subst hc1
        have hl := h.live
        rw [ht] at hl
        refine ⟨?_, ?_, ?_, ?_⟩
        · simp only [Alloc.pop, hl, ht, regsOf, List.tail_cons]
        · intro e
          simp only [Alloc.pop, ht, List.tail_cons]
          have hd := h.depth e
          rw [ht] at hd
          by_cases he : e = d
          · subst he; rw [upd_same, hd, List.count_cons_self]; omega
          · rw [upd_ne _ _ _ _ he, hd, List.count_cons_of_ne (Ne.symm he)]
        · intro e
          simp only [Alloc.pop]
          by_cases he : e = d
          · subst he; rw [upd_same]; have := h.maxd e; omega
          · rw [upd_ne _ _ _ _ he]; exact h.maxd e
        · simp only [Alloc.pop, ht, List.tail_cons]
          have hsv := h.saved
          rw [ht] at hsv
          apply hsv.pop d
          have : s.live.length = (d :: ts).length := by rw [hl, regsOf_length]
          rw [← this]; exact hc2
    · cases hs
  | enter =>
    simp only [ASt.step, Option.some.injEq] at hs; subst hs
    refine ⟨h.live, h.depth, h.maxd, ?_⟩
    have hlen : s.live.length = s.a.types.length := by rw [h.live, regsOf_length]
    refine ⟨Nat.le_of_eq hlen, hlen.symm, ?_, ?_⟩
    · intro c; rw [hlen, Nat.sub_self]; exact h.depth c
    · rw [hlen, Nat.sub_self]; exact h.saved
  | leave =>
    simp only [ASt.step] at hs
    cases hsv : s.saved with
    | nil => simp [hsv] at hs
    | cons p rest =>
      obtain ⟨sv, n⟩ := p
      simp only [hsv, Option.some.injEq] at hs; subst hs
      have hok := h.saved
      rw [hsv] at hok
      obtain ⟨h1, h2, h3, h4⟩ := hok
      have hlen : s.live.length = s.a.types.length := by rw [h.live, regsOf_length]
      refine ⟨?_, ?_, ?_, ?_⟩
      · simp only [Alloc.restore, h2, hlen]; rw [h.live, regsOf_drop]
      · intro c; simp only [Alloc.restore, h2]; exact h3 c
      · intro c
        simp only [Alloc.restore]
        rw [h3 c]
        have h5 := h.depth c
        have h6 := h.maxd c
        have h7 : (s.a.types.drop (s.a.types.length - n)).count c ≤ s.a.types.count c :=
          (List.drop_sublist _ _).count_le c
        omega
      · simp only [Alloc.restore, h2]; exact h4

theorem AInv.run {base : Cls → Nat} {s s' : ASt} {ops : List AOp} (h : AInv base s) (hs : s.run ops = some s') :
    AInv base s' := by
  induction ops generalizing s with
  | nil => simp only [ASt.run, Option.some.injEq] at hs; subst hs; exact h
  | cons op ops ih =>
    simp only [ASt.run, Option.bind_eq_some_iff] at hs
    obtain ⟨s1, h1, h2⟩ := hs
    exact ih (h.step h1) h2

theorem AInv.start (locals : List (Nat × Cls)) : AInv (Alloc.localCount locals) (ASt.start locals) :=
  ⟨rfl, by intro c; simp [ASt.start, Alloc.new], by intro c; simp [ASt.start, Alloc.new], trivial⟩

/-- C15. After any history of allocator operations, as long as no bank is deeper than 65536 (16-bit register indices):
* the registers of the live operand-stack values are pairwise distinct;
* they lie above the registers reserved for declared locals and inside the window `finalize` asks for (C14);
* popping (with the type the stack has on top) returns precisely the register that was handed out when that value was
  pushed. -/
theorem live_registers_distinct_partial (locals : List (Nat × Cls)) (ops : List AOp) (s : ASt)
    (hrun : (ASt.start locals).run ops = some s) (hdepth : ∀ c, s.a.depth c ≤ 65536) :
    s.live.Nodup ∧ s.live.length = s.a.types.length ∧
    (∀ r ∈ s.live, Alloc.localCount locals r.cls ≤ r.idx ∧ r.idx < s.a.finalize r.cls) ∧
    (∀ c, s.a.types.head? = some c → s.live.head? = some (s.a.pop c).1) := by
  have h := (AInv.start locals).run hrun
  have hle : ∀ c, Alloc.localCount locals c + s.a.types.count c ≤ 65536 := fun c => by
    have := h.depth c; have := hdepth c; omega
  refine ⟨?_, ?_, ?_, ?_⟩
  · rw [h.live]; exact regsOf_nodup _ _ hle
  · rw [h.live, regsOf_length]
  · intro r hr
    rw [h.live] at hr
    have h1 := regsOf_mem _ _ hle r hr
    have h2 := h.depth r.cls
    have h3 := h.maxd r.cls
    refine ⟨h1.1, ?_⟩
    simp only [Alloc.finalize]; omega
  · intro c hc
    rw [h.live]
    cases ht : s.a.types with
    | nil => simp [ht] at hc
    | cons d ts =>
      simp only [ht, List.head?_cons, Option.some.injEq] at hc
      subst hc
      simp only [regsOf, List.head?_cons, Alloc.pop]
      congr 2
      have := h.depth d
      rw [ht, List.count_cons_self] at this
      omega

theorem step_maxDepth_mono {s s' : ASt} {op : AOp} (h : s.step op = some s') (c : Cls) :
    s.a.maxDepth c ≤ s'.a.maxDepth c := by
  cases op with
  | push d =>
    simp only [ASt.step, Option.some.injEq] at h; subst h
    simp only [Alloc.push]
    by_cases hd : c = d
    · subst hd; simp; omega
    · rw [upd_ne _ _ _ _ hd]; exact Nat.le_refl _
  | pop d =>
    simp only [ASt.step] at h
    split at h
    · cases h; exact Nat.le_refl _
    · cases h
  | enter => simp only [ASt.step, Option.some.injEq] at h; subst h; exact Nat.le_refl _
  | leave =>
    simp only [ASt.step] at h
    cases hs : s.saved with
    | nil => simp [hs] at h
    | cons p rest => simp only [hs, Option.some.injEq] at h; subst h; exact Nat.le_refl _

/-- C14 (allocator part). A register handed out at any point of the preprocessing of a function lies inside the window
that `finalize` reports at the end: windows cover every register the code can name. -/
theorem handed_out_register_in_final_window (locals : List (Nat × Cls)) (ops1 ops2 : List AOp) (s s' : ASt)
    (hrun : (ASt.start locals).run ops1 = some s) (hrun2 : s.run ops2 = some s')
    (hdepth : ∀ c, s.a.depth c ≤ 65536) : ∀ r ∈ s.live, r.idx < s'.a.finalize r.cls := by
  intro r hr
  have h := (live_registers_distinct_partial locals ops1 s hrun hdepth).2.2.1 r hr
  have mono : ∀ (ops : List AOp) (s s' : ASt), s.run ops = some s' → s.a.maxDepth r.cls ≤ s'.a.maxDepth r.cls := by
    intro ops
    induction ops with
    | nil => intro s s' h; simp only [ASt.run, Option.some.injEq] at h; subst h; exact Nat.le_refl _
    | cons op ops ih =>
      intro s s' h
      simp only [ASt.run, Option.bind_eq_some_iff] at h
      obtain ⟨s1, h1, h2⟩ := h
      exact Nat.le_trans (step_maxDepth_mono h1 _) (ih _ _ h2)
  exact Nat.lt_of_lt_of_le h.2 (mono ops2 s s' hrun2)

/-- The 65536 bound is needed (u16 truncation): two live values may share register 0 beyond it. -/
theorem live_registers_distinct_violated :
    ∃ s, (ASt.start [(65535, .i32)]).run [.push .i32, .push .i32] = some s ∧
      s.live = [⟨.i32, 0⟩, ⟨.i32, 65535⟩] ∧
      (∃ s2, (ASt.start []).run (List.replicate 65537 (.push .i32)) = some s2 ∧ ¬ s2.live.Nodup) := by
  refine ⟨_, rfl, by rfl, ?_⟩
  have key : ∀ n (s : ASt), ∃ s', s.run (List.replicate n (.push .i32)) = some s' ∧
      s'.a.depth .i32 = s.a.depth .i32 + n ∧ ∃ l, s'.live = l ++ s.live := by
    intro n
    induction n with
    | zero => intro s; exact ⟨s, rfl, rfl, [], rfl⟩
    | succ n ih =>
      intro s
      obtain ⟨s', h1, h2, l, h3⟩ := ih { s with a := (s.a.push .i32).2, live := (s.a.push .i32).1 :: s.live }
      refine ⟨s', by simp only [List.replicate_succ, ASt.run, ASt.step, Option.bind_some]; exact h1, ?_, ?_⟩
      · rw [h2]; simp [Alloc.push]; omega
      · exact ⟨l ++ [(s.a.push .i32).1], by simp [h3]⟩
  obtain ⟨s1, h1, h2, l, h3⟩ := key 65535 ({ (ASt.start []) with
    a := ((ASt.start []).a.push .i32).2, live := [((ASt.start []).a.push .i32).1] })
  have hd : s1.a.depth .i32 = 65536 := by rw [h2]; rfl
  refine ⟨{ s1 with a := (s1.a.push .i32).2, live := (s1.a.push .i32).1 :: s1.live }, ?_, ?_⟩
  · rw [show (65537 : Nat) = 1 + (65535 + 1) by rfl, ← List.replicate_append_replicate, ← List.replicate_append_replicate]
    have happ : ∀ (a b : List AOp) (s : ASt), s.run (a ++ b) = (s.run a).bind (ASt.run · b) := by
      intro a
      induction a with
      | nil => intro b s; rfl
      | cons x a ih =>
        intro b s
        simp only [List.cons_append, ASt.run]
        cases s.step x with
        | none => rfl
        | some s1 => simp only [Option.bind_some]; exact ih b s1
    rw [happ]
    have e1 : (ASt.start []).run (List.replicate 1 (.push .i32)) = some ({ (ASt.start []) with
      a := ((ASt.start []).a.push .i32).2, live := [((ASt.start []).a.push .i32).1] }) := rfl
    rw [e1, Option.bind_some, happ]
    refine (congrArg (fun o => Option.bind o (ASt.run · (List.replicate 1 (.push .i32)))) h1).trans ?_
    rfl
  · intro hnd
    rw [List.nodup_cons] at hnd
    apply hnd.1
    rw [h3]
    have : (s1.a.push .i32).1 = ((ASt.start []).a.push .i32).1 := by
      simp only [Alloc.push, Alloc.mkReg, hd]; rfl
    rw [this]; simp

example : ∃ s, (ASt.start [(2, .i32), (1, .f64)]).run
    [.push .i32, .enter, .push .i64, .push .i32, .pop .i32, .leave, .push .i32] = some s ∧
    (∀ c, s.a.depth c ≤ 65536) ∧ s.live = [⟨.i32, 3⟩, ⟨.i32, 2⟩] :=
  ⟨_, rfl, by intro c; cases c <;> decide, rfl⟩

end Verif.Props
