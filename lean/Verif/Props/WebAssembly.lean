import Verif.Lemmas.WebComplete
import Verif.Lemmas.Named
import Verif.Props.EndToEndEx
/-
The command follows the WebAssembly rules of `Spec.WebAssembly` (C22, C23, C46, C51).
-/
namespace Verif.Props
open Verif.Model Verif.Spec Verif.Lemmas

/-- The functional semantics the compiler is verified against says what the rules say, also about what is left by a call that
traps. -/
theorem source_leaves {S : Wasi} {Q : SProg} {M : MInfo} (hS : WasiKeepsSize S) {F : SFunc} {args : List Val} {st : Store}
    {w : S.W} (g : st.Good) (hodd : ∀ y, ¬ Call S Q M F args st w (.odd y)) :
    (∀ vs st' w', Call S Q M F args st w (.ok vs st' w') ↔ GivesL S Q M F args st w (.ok vs) st' w') ∧
    (∀ c st' w', Call S Q M F args st w (.exit c st' w') ↔ GivesL S Q M F args st w (.trap (.processExit c)) st' w') ∧
    (∀ st' w', Call S Q M F args st w (.trap st' w') ↔
      ∃ o, GivesL S Q M F args st w o st' w' ∧ (o = .panic ∨ ∃ e, o = .trap e ∧ ∀ c, e ≠ .processExit c)) ∧
    (∀ st' w', ¬ GivesL S Q M F args st w .ub st' w') ∧ ¬ HitsHost S Q M F args st w ∧
    ∀ o st' w', GivesL S Q M F args st w o st' w' → st'.Good := by
  have snd : ∀ n, CAgr (Call S Q M F args st w) (invoke S Q M n F args st w) :=
    fun n => call_sound hS (run_sound hS n) F args st w g
  have hfail : ∀ n e st' w', invoke S Q M n F args st w = .fail e st' w' →
      ((∃ c, e = .trap (.processExit c) ∧ Call S Q M F args st w (.exit c st' w')) ∨
      (e = .panic ∨ ∃ x, e = .trap x ∧ ∀ c, x ≠ .processExit c) ∧ Call S Q M F args st w (.trap st' w')) ∧ st'.Good := by
    intro n e st' w' h
    rcases snd n with ⟨y, k⟩ | k
    · exact (hodd y k).elim
    · rw [h] at k
      cases e with
      | trap x =>
        by_cases hx : ∃ c, x = .processExit c
        · obtain ⟨c, rfl⟩ := hx
          exact ⟨.inl ⟨c, rfl, k.1⟩, k.2⟩
        · have hx : ∀ c, x ≠ .processExit c := fun c h => hx ⟨c, h⟩
          have k : Call S Q M F args st w (Fail.callOut st' w' (.trap x)) ∧ st'.Good := k
          rw [Fail.callOut_trap hx] at k
          exact ⟨.inr ⟨.inr ⟨x, rfl, hx⟩, k.1⟩, k.2⟩
      | panic => exact ⟨.inr ⟨.inl rfl, k.1⟩, k.2⟩
      | ub => exact k.elim
  refine ⟨fun vs st' w' => ⟨fun h => ?_, fun h => ?_⟩, fun c st' w' => ⟨fun h => ?_, fun h => ?_⟩,
    fun st' w' => ⟨fun h => ?_, ?_⟩, ?_, ?_, ?_⟩
  · rcases call_complete hS h g with ⟨y, k⟩ | ⟨n, hn⟩
    · exact (hodd y k).elim
    · cases e : invoke S Q M n F args st w with
      | ok a b c => rw [e] at hn; cases hn; exact .ok e
      | fail f => rw [e] at hn; rcases CIs.failed hn with h | ⟨_, h⟩ <;> cases h
      | _ => rw [e] at hn; cases hn
  · generalize hx : (Res.ok vs : Res (List Val)) = x at h
    cases h with
    | @ok n _ _ _ h =>
      cases hx
      rcases snd n with ⟨y, k⟩ | k
      · exact (hodd y k).elim
      · rw [h] at k; exact k.1
    | @fail n e _ _ h =>
      rcases (hfail n e _ _ h).1 with ⟨_, rfl, _⟩ | ⟨rfl | ⟨_, rfl, _⟩, _⟩ <;> cases hx
  · rcases call_complete hS h g with ⟨y, k⟩ | ⟨n, hn⟩
    · exact (hodd y k).elim
    · cases e : invoke S Q M n F args st w with
      | ok a b c => rw [e] at hn; cases hn
      | fail f st1 w1 =>
        rw [e] at hn
        rcases (hfail n f _ _ e).1 with ⟨c', rfl, _⟩ | ⟨rfl | ⟨x, rfl, hx⟩, _⟩
        · cases hn; exact .fail e
        · cases hn
        · have hn : CallOut.exit c st' w' = Fail.callOut st1 w1 (.trap x) := hn
          rw [Fail.callOut_trap hx] at hn
          cases hn
      | _ => rw [e] at hn; cases hn
  · generalize hx : (Res.trap (.processExit c) : Res (List Val)) = x at h
    cases h with
    | @ok n _ _ _ h => cases hx
    | @fail n e _ _ h =>
      rcases (hfail n e _ _ h).1 with ⟨c', rfl, k⟩ | ⟨rfl | ⟨x, rfl, hne⟩, _⟩
      · cases hx; exact k
      · cases hx
      · cases hx; exact (hne c rfl).elim
  · rcases call_complete hS h g with ⟨y, k⟩ | ⟨n, hn⟩
    · exact (hodd y k).elim
    · cases e : invoke S Q M n F args st w with
      | ok a b c => rw [e] at hn; cases hn
      | fail f st1 w1 =>
        rw [e] at hn
        rcases (hfail n f _ _ e).1 with ⟨c', rfl, _⟩ | ⟨rfl | ⟨x, rfl, hx⟩, _⟩
        · cases hn
        · cases hn; exact ⟨_, .fail e, .inl rfl⟩
        · have hn : CallOut.trap st' w' = Fail.callOut st1 w1 (.trap x) := hn
          rw [Fail.callOut_trap hx] at hn
          cases hn
          exact ⟨_, .fail e, .inr ⟨x, rfl, hx⟩⟩
      | _ => rw [e] at hn; cases hn
  · rintro ⟨o, h, ho⟩
    cases h with
    | @ok n _ _ _ h => rcases ho with ho | ⟨_, ho, _⟩ <;> cases ho
    | @fail n e _ _ h =>
      rcases (hfail n e _ _ h).1 with ⟨c', rfl, _⟩ | ⟨_, k⟩
      · rcases ho with ho | ⟨_, ho, hne⟩
        · cases ho
        · cases ho; exact (hne _ rfl).elim
      · exact k
  · intro st' w' h
    generalize hx : (Res.ub : Res (List Val)) = x at h
    cases h with
    | @ok n _ _ _ h => cases hx
    | @fail n e _ _ h => rcases (hfail n e _ _ h).1 with ⟨_, rfl, _⟩ | ⟨rfl | ⟨_, rfl, _⟩, _⟩ <;> cases hx
  · rintro ⟨n, h⟩
    rcases snd n with ⟨y, k⟩ | k
    · exact hodd y k
    · rw [h] at k; exact k
  · intro o st' w' h
    cases h with
    | @ok n _ _ _ h =>
      rcases snd n with ⟨y, k⟩ | k
      · exact (hodd y k).elim
      · rw [h] at k; exact k.2
    | @fail n e _ _ h => exact (hfail n e _ _ h).2

/-- what a call shows and what it leaves -/
theorem gives_ok {S : Wasi} {Q : SProg} {M : MInfo} {F : SFunc} {args : List Val} {st : Store} {w : S.W} {vs : List Val} {st' : Store} {w' : S.W} :
    Gives S Q M F args st w (.ok (vs, st', w')) ↔ GivesL S Q M F args st w (.ok vs) st' w' := by
  constructor
  · intro h
    generalize hx : (Res.ok (vs, st', w') : Res (List Val × Store × S.W)) = x at h
    cases h with
    | ok h => cases hx; exact .ok h
    | @fail n e _ _ h => cases e <;> cases hx
  · intro h
    generalize hx : (Res.ok vs : Res (List Val)) = x at h
    cases h with
    | ok h => cases hx; exact .ok h
    | @fail n e _ _ h => cases e <;> cases hx

/-- a call that does not return fails in the same way -/
theorem gives_fail {S : Wasi} {Q : SProg} {M : MInfo} {F : SFunc} {args : List Val} {st : Store} {w : S.W} {e : Fail} :
    Gives S Q M F args st w e.report ↔ ∃ st' w', GivesL S Q M F args st w e.report st' w' := by
  constructor
  · intro h
    generalize hx : (e.report : Res (List Val × Store × S.W)) = x at h
    cases h with
    | ok h => cases e <;> cases hx
    | @fail n e' st' w' h => exact ⟨st', w', by cases e <;> cases e' <;> cases hx <;> exact .fail h⟩
  · rintro ⟨st', w', h⟩
    generalize hx : (e.report : Res (List Val)) = x at h
    cases h with
    | ok h => cases e <;> cases hx
    | @fail n e' _ _ h => cases e <;> cases e' <;> cases hx <;> exact .fail h

/-- The functional semantics the compiler is verified against says what the rules say. -/
theorem source_is_webassembly {S : Wasi} {Q : SProg} {M : MInfo} (hS : WasiKeepsSize S) {F : SFunc} {args : List Val} {st : Store}
    {w : S.W} (g : st.Good) (hodd : ∀ y, ¬ Call S Q M F args st w (.odd y)) :
    (∀ vs st' w', Call S Q M F args st w (.ok vs st' w') ↔ Gives S Q M F args st w (.ok (vs, st', w'))) ∧
    (∀ c, (∃ st' w', Call S Q M F args st w (.exit c st' w')) ↔ Gives S Q M F args st w (.trap (.processExit c))) ∧
    ((∃ st' w', Call S Q M F args st w (.trap st' w')) ↔
      ∃ o, Gives S Q M F args st w o ∧ (o = .panic ∨ ∃ e, o = .trap e ∧ ∀ c, e ≠ .processExit c)) ∧
    ¬ Gives S Q M F args st w .ub ∧ ¬ HitsHost S Q M F args st w := by
  obtain ⟨h1, h2, h3, h4, h5, _⟩ := source_leaves (M := M) (Q := Q) (F := F) (args := args) hS g hodd
  refine ⟨fun vs st' w' => (h1 vs st' w').trans gives_ok.symm, fun c => ?_, ?_, fun h => ?_, h5⟩
  · rw [show (Res.trap (.processExit c) : Res (List Val × Store × S.W)) = (Fail.trap (.processExit c)).report from rfl, gives_fail]
    exact ⟨fun ⟨a, b, h⟩ => ⟨a, b, (h2 c a b).mp h⟩, fun ⟨a, b, h⟩ => ⟨a, b, (h2 c a b).mpr h⟩⟩
  · constructor
    · rintro ⟨a, b, h⟩
      obtain ⟨o, k, hk⟩ := (h3 a b).mp h
      rcases hk with rfl | ⟨e, rfl, he⟩
      · exact ⟨_, (gives_fail (e := .panic)).mpr ⟨a, b, k⟩, .inl rfl⟩
      · exact ⟨_, (gives_fail (e := .trap e)).mpr ⟨a, b, k⟩, .inr ⟨e, rfl, he⟩⟩
    · rintro ⟨o, k, rfl | ⟨e, rfl, he⟩⟩
      · obtain ⟨a, b, k⟩ := (gives_fail (e := .panic)).mp k
        exact ⟨a, b, (h3 a b).mpr ⟨_, k, .inl rfl⟩⟩
      · obtain ⟨a, b, k⟩ := (gives_fail (e := .trap e)).mp k
        exact ⟨a, b, (h3 a b).mpr ⟨_, k, .inr ⟨e, rfl, he⟩⟩⟩
  · obtain ⟨a, b, k⟩ := (gives_fail (e := .ub)).mp h
    exact h4 a b k

/-- validation: a memory's maximum is at most 65536 pages -/
def MaxPages (A : SMod) : Prop := ∀ l ∈ A.mems, ∀ x, l.max = some x → x ≤ 65536

theorem initialStore_good {S : Wasi} {A : SMod} {H : FloatHost} (h : A.WellFormed S H) (hx : MaxPages A) {st : Store}
    (hst : InitialStore A st) : st.Good where
  mem := by
    intro m hm
    obtain ⟨l, _, hl, hlen, hmax, _⟩ := hst.mem.2 m hm
    have hlm := List.mem_of_getElem? hl
    have hlt := (h.mems l hlm).1
    have hpg := h.decls.mems (BitVec.ofNat 32 l.min, l.max.map (BitVec.ofNat 32))
      (by simp only [SMod.decls, List.mem_map]; exact ⟨l, hlm, rfl⟩)
    simp only [BitVec.toNat_ofNat, Nat.mod_eq_of_lt hlt] at hpg
    refine ⟨by rw [hlen]; simp [pageSize], by rw [hlen]; omega, fun x e => ?_⟩
    rw [hmax] at e
    cases hm' : l.max with
    | none => rw [hm'] at e; cases e
    | some y =>
      rw [hm'] at e
      cases e
      have := hx l hlm y hm'
      rw [BitVec.toNat_ofNat]
      omega
  datas := by
    intro k d hd
    rw [hst.datas, List.getElem?_map, Option.map_eq_some_iff] at hd
    obtain ⟨x, hx, rfl⟩ := hd
    exact h.dataLen x (List.mem_of_getElem? hx)
  tables := by
    intro k tb hk
    have hi : k < A.tables.length := by
      rw [← hst.tables.1]; exact (List.getElem?_eq_some_iff.mp hk).1
    obtain ⟨t, _, h1, h2, _⟩ := hst.tables.2 k _ (List.getElem?_eq_getElem hi)
    rw [h1] at hk
    cases hk
    rw [h2]
    exact (h.tables _ (List.getElem_mem hi)).1

/-- the store a module starts from has what the module declares -/
theorem initialStore_has {A : SMod} {st : Store} (hst : InitialStore A st) : st.Has A.stock where
  mem := by
    cases hm : st.mem with
    | none => simp [SMod.stock, hst.mem.1.mp hm]
    | some m =>
      simp only [SMod.stock, Option.isSome_some, Bool.not_eq_true', List.isEmpty_eq_false_iff]
      intro e
      rw [hst.mem.1.mpr e] at hm
      cases hm
  tables := hst.tables.1
  datas := by rw [hst.datas]; simp [SMod.stock]

/-- C51: a program whose names exist never reaches a name that does not. -/
theorem never_misnamed {S : Wasi} {A : SMod} {H : FloatHost} (hN : A.Named H) {M : MInfo} {F : SFunc} (hF : F ∈ (A.source H).funcs) {args : List Val}
    (ha : args.length = F.type.params.length) {st : Store} (hst : InitialStore A st) {w : S.W} :
    ¬ Call S (A.source H) M F args st w (.odd .misnamed) := call_named hN hF ha (initialStore_has hst)

/-- **C51**: with no trigger raised, running the command on the file of a well-formed module and the name of an exported
function ends exactly as the rules of WebAssembly say the call ends, started in the module's initial store: it returns the
same results, leaving the same memory, globals, tables and outside world, or the host ends the process with the same code, or both
trap, or both go on for ever.  `hodd`
excludes executions that reach one of the deviations listed in `Spec.Odd`, an indirect call of a host function, or a host function
that leaves defined behaviour or finds no memory; the module mentions only what it has (`Named`, part of validation) and is in the
supported part of WebAssembly (`WellFormed`, `compile`). -/
theorem main_is_webassembly {S : Wasi} (hS : WasiKeepsSize S) {A : SMod} {H : FloatHost} (h : A.WellFormed S H) (hx : MaxPages A)
    (hN : A.Named H) {P : Prog} (hc : (A.source H).compile A.globalTypes = some P) (hn : (A.exports.map (·.1)).Nodup) {name : String} {f : Nat}
    (he : (name, .func f) ∈ A.exports) {t : FuncType} {ls : List (Nat × Cls)} {b : WSeq}
    (hf : (A.source H).funcs[f]? = some (.wasm t ls b)) {args : List Val} (hargs : args.map (·.cls) = t.params)
    (atomics : Bool) {D : Env → Dispatcher} (hD : Build D) (enable : Bool) (world : S.W) {st : Store} (hst : InitialStore A st)
    (hodd : ¬ Call S (A.source H) ((A.source H).info A.globalTypes) (.wasm t ls b) args st world (.odd .deviates)) :
    (∀ vs st' w', MainShows H atomics D enable (some A.file) name args world (.ok (vs, st', w')) ↔
      Call S (A.source H) ((A.source H).info A.globalTypes) (.wasm t ls b) args st world (.ok vs st' w')) ∧
    (∀ c, MainShows (S := S) H atomics D enable (some A.file) name args world (.trap (.processExit c)) ↔
      ∃ st' w', Call S (A.source H) ((A.source H).info A.globalTypes) (.wasm t ls b) args st world (.exit c st' w')) ∧
    ((∃ o, MainShows (S := S) H atomics D enable (some A.file) name args world o ∧
        (o = .panic ∨ ∃ e, o = .trap e ∧ ∀ c, e ≠ .processExit c)) ↔
      ∃ st' w', Call S (A.source H) ((A.source H).info A.globalTypes) (.wasm t ls b) args st world (.trap st' w')) ∧
    ¬ MainShows (S := S) H atomics D enable (some A.file) name args world .ub := by
  obtain ⟨w1, w5, w2, w3, w4⟩ := source_is_webassembly (M := (A.source H).info A.globalTypes) (F := .wasm t ls b) (args := args) (w := world)
    hS (initialStore_good h hx hst) (by
      intro y
      cases y with
      | deviates => exact hodd
      | misnamed => exact never_misnamed hN (List.mem_of_getElem? hf) (by show args.length = t.params.length; rw [← hargs]; simp) hst)
  obtain ⟨c1, c2, _⟩ := main_correct_partial h hc hn he hf hargs atomics hD enable world hst
  have c : ∀ o, MainShows H atomics D enable (some A.file) name args world o ↔
      Gives S (A.source H) ((A.source H).info A.globalTypes) (.wasm t ls b) args st world o := fun o => ⟨c2 w4 o, c1 o⟩
  refine ⟨fun vs st' w' => (c _).trans (w1 vs st' w').symm, fun x => (c _).trans (w5 x).symm, ?_, fun k => w3 ((c _).mp k)⟩
  rw [w2]
  exact ⟨fun ⟨o, k1, k2⟩ => ⟨o, (c o).mp k1, k2⟩, fun ⟨o, k1, k2⟩ => ⟨o, (c o).mpr k1, k2⟩⟩

/-- The rules determine how a call ends, unless it may end oddly. -/
theorem webassembly_deterministic {S : Wasi} {Q : SProg} {M : MInfo} (hS : WasiKeepsSize S) {F : SFunc} {args : List Val} {st : Store}
    {w : S.W} (g : st.Good) (hodd : ∀ y, ¬ Call S Q M F args st w (.odd y)) {c c' : CallOut S.W} (h : Call S Q M F args st w c)
    (h' : Call S Q M F args st w c') : c = c' := by
  rcases call_complete hS h g with ⟨y, k⟩ | ⟨n, hn⟩
  · exact (hodd y k).elim
  rcases call_complete hS h' g with ⟨y, k⟩ | ⟨n', hn'⟩
  · exact (hodd y k).elim
  have e : invoke S Q M n F args st w = invoke S Q M n' F args st w :=
    (hn.up (Nat.le_max_left n n')).symm.trans (hn'.up (Nat.le_max_right n n'))
  rw [e] at hn
  revert hn hn'
  cases invoke S Q M n' F args st w with
  | ok => intro a b; cases a; cases b; rfl
  | fail f => cases f <;> intro a b <;> first | exact a.elim | exact (show c = _ from a).trans (show c' = _ from b).symm
  | _ => intro a; exact a.elim

/-! ### The assumptions can be met -/

theorem ev_next_inv {S : Wasi} {Q : SProg} {M : MInfo} {o : WOp} {k : WSeq} {stk stk' : List Val} {s s' : SSt S.W} {out : WOut S.W}
    (h : Ev S Q M (.op o k) stk s out) (ho : ∀ y, ¬ Odd y o stk s) (hn : Op Q.H o stk s (.next stk' s')) : Ev S Q M k stk' s' out := by
  cases h with
  | next h' hk => cases op_det hn h'; exact hk
  | trap h' => cases op_det hn h'
  | odd h' => exact (ho _ h').elim
  | _ => cases hn

namespace FileEx

theorem keeps : WasiKeepsSize wasi := by
  intro id ps mem w res mem' w' h
  simp only [wasi, Res.ok_inj, Prod.mk.injEq] at h
  obtain ⟨_, rfl, _⟩ := h
  exact ⟨rfl, rfl⟩

theorem maxPages : MaxPages A := by
  intro l hl x hx
  simp only [A, List.mem_cons, List.not_mem_nil, or_false] at hl
  subst hl
  cases hx
  omega

theorem namedA : A.Named Sample.host := by
  intro t ls b h
  rcases mem_funcs h with ⟨rfl, rfl, rfl⟩ | ⟨rfl, rfl, rfl⟩ <;> decide

/-- what the functions of the example do to any argument -/
theorem addG_inv {m : Mem} {x : BitVec 32} {t : List (List Ref)} {d : List (List Byte)} {w : wasi.W} {g : List Global} {v : BitVec 32} {mt : Bool}
    (hg : g[0]? = some ⟨mt, i32 v⟩) {c : CallOut wasi.W}
    (h : Call wasi (A.source Sample.host) info (.wasm ⟨[.i32], [.i32]⟩ [] addG) [i32 x] ⟨some m, g, t, d⟩ w c) :
    c = .ok [i32 (x + v)] ⟨some m, g, t, d⟩ w := by
  have key : ∀ out, Ev wasi (A.source Sample.host) info addG [] ⟨initialLocals [i32 x] [], ⟨some m, g, t, d⟩, w⟩ out →
      out = .norm [i32 (x + v)] ⟨initialLocals [i32 x] [], ⟨some m, g, t, d⟩, w⟩ := by
    intro out h
    have h := ev_next_inv h (by intro y h; cases h <;> simp_all) (.localGet (v := i32 x) rfl)
    have h := ev_next_inv h (by intro y h; cases h <;> simp_all) (.globalGet hg)
    have h := ev_next_inv h (by intro y h; cases h <;> simp_all) (.bin (op := .int .s32 .add) (v := x + v) ⟨_, rfl, by simp [Cls.num, Sz.bits, BitVec.toNat_add]⟩)
    cases h
    rfl
  cases h with
  | norm h => cases key _ h; rfl
  | brOut h => cases key _ h
  | retOut h => cases key _ h
  | trapOut h => cases key _ h
  | exitOut h => cases key _ h
  | oddOut h => cases key _ h

theorem through {m : Mem} {x : BitVec 32} {l : List Val} {d : List (List Byte)} {w : wasi.W} {g : List Global} {v : BitVec 32} {mt : Bool} {k : WSeq} {out : WOut wasi.W}
    (hg : g[0]? = some ⟨mt, i32 v⟩)
    (h : Ev wasi (A.source Sample.host) info (.op (.callIndirect 1 0) k) [i32 1, i32 x] ⟨l, ⟨some m, g, [[.null, .func 1]], d⟩, w⟩ out) :
    Ev wasi (A.source Sample.host) info k [i32 (x + v)] ⟨l, ⟨some m, g, [[.null, .func 1]], d⟩, w⟩ out := by
  generalize hs : ([i32 1, i32 x] : List Val) = stk at h
  cases h with
  | next h' hk => cases h'
  | trap h' => cases h'
  | odd h' => subst hs; cases h' <;> simp_all
  | callHost ht he hf =>
    cases hs; cases ht; cases he
    rw [funcs] at hf; cases hf
  | callOutside ht he => cases hs; cases ht; simp at he
  | callNoTable h => simp at h
  | callNull ht he hr =>
    cases hs; cases ht; cases he
    exact (hr 1 _ rfl (by rw [funcs]; rfl) (by rw [source]; rfl)).elim
  | callIndirect ht he hf hty ha hc hr hx =>
    injection hs with h1 h2
    cases h1; cases ht; cases he
    rw [funcs] at hf
    cases hf
    rename_i args
    rcases args with _ | ⟨a, _ | ⟨b, args⟩⟩
    · cases ha
    · have h2' : [i32 x] = a :: _ := h2
      injection h2' with h2 h3
      subst h2 h3
      cases addG_inv hg hc
      cases hr
      cases hx with
      | go hk => exact hk
    · have := congrArg List.length ha
      simp [SFunc.type] at this

theorem host {m : Mem} {x : BitVec 32} {l : List Val} {d : List (List Byte)} {t : List (List Ref)} {w : wasi.W} {g : List Global} {k : WSeq}
    {out : WOut wasi.W} (h : Ev wasi (A.source Sample.host) info (.op (.call 0) k) [i32 x] ⟨l, ⟨some m, g, t, d⟩, w⟩ out) :
    Ev wasi (A.source Sample.host) info k [i32 0, i32 x] ⟨l, ⟨some m, g, t, d⟩, Nat.succ w⟩ out := by
  generalize hs : ([i32 x] : List Val) = stk at h
  cases h with
  | next h' hk => cases h'
  | trap h' => cases h'
  | odd h' => subst hs; cases h' <;> simp_all
  | call hf ha hc hr hx =>
    rw [funcs] at hf
    cases hf
    rename_i args
    cases args with
    | cons a args => cases ha
    | nil =>
      cases hs
      cases hc with
      | host hm h hv =>
        cases hm
        cases h
        cases hr
        cases hx with
        | go hk => exact hk
      | hostFails hm h => cases h
      | hostRefuses hm h =>
        rcases h with ⟨_, h, _⟩ | h <;> cases h
      | hostExits hm h => cases h
      | hostOdd h => cases h m rfl

theorem main_inv {m : Mem} {x : BitVec 32} {d : List (List Byte)} {w : wasi.W} {g : List Global} {v : BitVec 32} {mt : Bool}
    (hg : g[0]? = some ⟨mt, i32 v⟩) {c : CallOut wasi.W}
    (h : Call wasi (A.source Sample.host) info (.wasm ⟨[.i32], [.i32]⟩ [(2, .i64)] main) [i32 x] ⟨some m, g, [[.null, .func 1]], d⟩ w c) :
    c = .ok [i32 (x + v)] ⟨some m, g, [[.null, .func 1]], d⟩ (Nat.succ w) := by
  have key : ∀ out, Ev wasi (A.source Sample.host) info main [] ⟨initialLocals [i32 x] [(2, .i64)], ⟨some m, g, [[.null, .func 1]], d⟩, w⟩ out →
      out = .norm [i32 (x + v)] ⟨initialLocals [i32 x] [(2, .i64)], ⟨some m, g, [[.null, .func 1]], d⟩, Nat.succ w⟩ := by
    intro out h
    have h := ev_next_inv h (by intro y h; cases h <;> simp_all) (.localGet (v := i32 x) rfl)
    have h := ev_next_inv h (by intro y h; cases h <;> simp_all) .const
    have h := through hg h
    have h := host h
    have h := ev_next_inv h (by intro y h; cases h <;> simp_all) (.bin (op := .int .s32 .add) (v := x + v)
      ⟨_, rfl, by simp [Cls.num, Sz.bits, BitVec.toNat_add]⟩)
    cases h
    rfl
  cases h with
  | norm h => cases key _ h; rfl
  | brOut h => cases key _ h
  | retOut h => cases key _ h
  | trapOut h => cases key _ h
  | exitOut h => cases key _ h
  | oddOut h => cases key _ h

/-- the initial store of the example -/
theorem store {st : Store} (hst : InitialStore A st) :
    ∃ m, st = ⟨some m, [⟨true, vi 5⟩, ⟨false, vi 5⟩], [[.null, .func 1]], [[1, 2, 3], [9], [4]]⟩ := by
  obtain ⟨P, hP⟩ := compiles
  obtain ⟨fs, L, _, hL, _, _, _, hti⟩ := load_ok wellFormed hP
  have hs := initialStore_unique hst (load_store wellFormed hL)
  obtain ⟨imported, own, tables, mems, h1, h2, h3, h4, h5, h6, h7, h8, h9, h10, h11, _⟩ := (instantiate_parts hL).parts
  have e1 : L.inst.globals = [⟨true, vi 5⟩, ⟨false, vi 5⟩] := (Res.ok.inj h2).symm
  have e3 : imported = [.wasi ⟨[], [.i32]⟩ 13] := by
    have : linkImports A.decls.imports = .ok imported := h1
    simp only [SMod.decls, A, List.map_cons, List.map_nil, yield] at this
    exact (Res.ok.inj this).symm
  have e2 : tables = [[.null, .func 1]] := by
    rw [e1, e3] at h3
    have hl : (A.loaded fs).funcs.length = fs.length := rfl
    have h3' : initElems (1 + fs.length) [⟨true, vi 5⟩, ⟨false, vi 5⟩] [[.null, .null]] [⟨true, some [1], some (0, [.i32 1])⟩] = .ok tables := h3
    have hf : fs.length = 2 := by simpa [A] using congrArg List.length hti
    rw [hf] at h3'
    exact (Res.ok.inj h3').symm
  have e : st = ⟨L.inst.mem, [⟨true, vi 5⟩, ⟨false, vi 5⟩], [[.null, .func 1]], [[1, 2, 3], [9], [4]]⟩ := by
    rw [hs, storeOf, e1, h10, e2, h11]
    rfl
  cases hm : L.inst.mem with
  | none =>
    rw [hm] at e
    exact absurd (hst.mem.1.mp (by rw [e])) (by simp [A])
  | some m => exact ⟨m, by rw [e, hm]⟩

/-- `main_is_webassembly` applies to the example, whatever the argument: the call does not end oddly, and the command
shows argument + 5 after one call to the host. -/
example (atomics : Bool) {D : Env → Dispatcher} (hD : Build D) (en : Bool) (x : BitVec 32) {st : Store} (hst : InitialStore A st) :
    ¬ Call wasi (A.source Sample.host) info (.wasm ⟨[.i32], [.i32]⟩ [(2, .i64)] main) [i32 x] st (0 : Nat) (.odd .deviates) ∧
    Call wasi (A.source Sample.host) info (.wasm ⟨[.i32], [.i32]⟩ [(2, .i64)] main) [i32 x] st (0 : Nat) (.ok [i32 (x + 5)] st (1 : Nat)) ∧
    MainShows (S := wasi) Sample.host atomics D en (some A.file) "run" [i32 x] (0 : Nat) (.ok ([i32 (x + 5)], st, (1 : Nat))) := by
  obtain ⟨m, rfl⟩ := store hst
  have hodd : ¬ Call wasi (A.source Sample.host) info (.wasm ⟨[.i32], [.i32]⟩ [(2, .i64)] main) [i32 x]
      ⟨some m, [⟨true, vi 5⟩, ⟨false, vi 5⟩], [[.null, .func 1]], [[1, 2, 3], [9], [4]]⟩ (0 : Nat) (.odd .deviates) := by
    intro h
    cases main_inv (v := 5) rfl h
  have hadd : ∀ a b : BitVec 32, Binary Sample.host (.int .s32 .add) a b (some (a + b)) := fun a b =>
    ⟨_, rfl, by simp [Cls.num, Sz.bits, BitVec.toNat_add]⟩
  have hcall : Call wasi (A.source Sample.host) info (.wasm ⟨[.i32], [.i32]⟩ [(2, .i64)] main) [i32 x]
      ⟨some m, [⟨true, vi 5⟩, ⟨false, vi 5⟩], [[.null, .func 1]], [[1, 2, 3], [9], [4]]⟩ (0 : Nat)
      (.ok [i32 (x + 5)] ⟨some m, [⟨true, vi 5⟩, ⟨false, vi 5⟩], [[.null, .func 1]], [[1, 2, 3], [9], [4]]⟩ (1 : Nat)) := by
    have hc1 : Call wasi (A.source Sample.host) info (.wasm ⟨[.i32], [.i32]⟩ [] addG) [i32 x]
        ⟨some m, [⟨true, vi 5⟩, ⟨false, vi 5⟩], [[.null, .func 1]], [[1, 2, 3], [9], [4]]⟩ (0 : Nat)
        (.ok [i32 (x + 5)] ⟨some m, [⟨true, vi 5⟩, ⟨false, vi 5⟩], [[.null, .func 1]], [[1, 2, 3], [9], [4]]⟩ (0 : Nat)) :=
      .norm (S := wasi) (vs := [i32 (x + 5)]) (s' := ⟨initialLocals [i32 x] [], ⟨some m, [⟨true, vi 5⟩, ⟨false, vi 5⟩], [[.null, .func 1]], [[1, 2, 3], [9], [4]]⟩, (0 : Nat)⟩)
        (.next (.localGet (v := i32 x) rfl) (.next (.globalGet (gl := ⟨true, vi 5⟩) rfl) (.next (.bin (op := .int .s32 .add) (hadd x 5)) .done)))
    have hc2 : Call wasi (A.source Sample.host) info (.wasi ⟨[], [.i32]⟩ 13) []
        ⟨some m, [⟨true, vi 5⟩, ⟨false, vi 5⟩], [[.null, .func 1]], [[1, 2, 3], [9], [4]]⟩ (0 : Nat)
        (.ok [i32 0] ⟨some m, [⟨true, vi 5⟩, ⟨false, vi 5⟩], [[.null, .func 1]], [[1, 2, 3], [9], [4]]⟩ (1 : Nat)) :=
      .host (v := some (vi 0)) rfl rfl rfl
    refine .norm (S := wasi) (vs := [i32 (x + 5)]) (s' := ⟨initialLocals [i32 x] [(2, .i64)], ⟨some m, [⟨true, vi 5⟩, ⟨false, vi 5⟩], [[.null, .func 1]], [[1, 2, 3], [9], [4]]⟩, (1 : Nat)⟩)
      (.next (.localGet (v := i32 x) rfl) (.next .const ?_))
    refine .callIndirect (args := [i32 x]) (i := 1) rfl rfl (by rw [funcs]; rfl) (by rw [source]; rfl) rfl hc1 .ok (.go ?_)
    refine .call (args := []) (by rw [funcs]; rfl) rfl hc2 .ok (.go ?_)
    exact .next (.bin (op := .int .s32 .add) (show Binary Sample.host _ _ _ _ by simpa using hadd (x + 5) 0)) .done
  obtain ⟨P, hP⟩ := compiles
  exact ⟨hodd, hcall, ((main_is_webassembly keeps wellFormed maxPages namedA hP (by decide) (f := 2) (by simp [A]) (by rw [funcs]; rfl) rfl
    atomics hD en (0 : Nat) hst hodd).1 _ _ _).mpr hcall⟩

end FileEx

end Verif.Props
