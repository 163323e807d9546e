import Verif.Whole.Model
import Verif.Props.ParseRegs

/-!
# What a successful call has gone through
-/

namespace Verif.Whole

open Verif.ADMM Verif.Penalties Verif.Loop Verif.Parse Verif.Spec Verif.Props

variable {I K R : ℕ} {J : Fin I → ℕ}

theorem seqFin_ok {β : Type} : ∀ {n : ℕ} {f : Fin n → Except PyErr β} {g : Fin n → β}, seqFin n f = .ok g ↔ ∀ p, f p = .ok (g p)
  | 0, f, g => ⟨fun _ p => p.elim0, fun _ => congrArg Except.ok (funext fun p : Fin 0 => p.elim0)⟩
  | n + 1, f, g => by
    rw [seqFin]
    cases h0 : f 0 with
    | error e =>
      refine ⟨fun h => ?_, fun h => ?_⟩
      · cases h
      · rw [h 0] at h0; cases h0
    | ok x =>
      cases h1 : seqFin n fun p => f p.succ with
      | error e =>
        refine ⟨fun h => ?_, fun h => ?_⟩
        · simp [bind, Except.bind] at h
        · have := (seqFin_ok (g := fun p => g p.succ)).2 fun p => h p.succ
          rw [this] at h1; cases h1
      | ok xs =>
        have hs := seqFin_ok.1 h1
        rw [show (do let x ← (.ok x : Except PyErr β); let xs ← (.ok xs : Except PyErr (Fin n → β)); return Fin.cons x xs : Except PyErr (Fin (n + 1) → β)) =
          .ok (Fin.cons x xs) from rfl]
        constructor
        · intro h
          have e := Except.ok.inj h
          intro p
          rw [← e]
          refine Fin.cases ?_ (fun q => ?_) p
          · simpa using h0
          · simpa using hs q
        · intro h
          have e : (Fin.cons x xs : Fin (n + 1) → β) = g := by
            funext p
            refine Fin.cases ?_ (fun q => ?_) p
            · have := h 0; rw [h0] at this; simpa using Except.ok.inj this
            · have := h q.succ; rw [hs q] at this; simpa using Except.ok.inj this
          rw [← e]

theorem mapM_pens : ∀ l : List (Pen String), ((l.map Val.pen).mapM fun v => match v with | .pen p => .ok p | _ => .error .typeError) =
    (.ok l : Except PyErr (List (Pen String)))
  | [] => rfl
  | p :: l => by
    rw [List.map_cons, List.mapM_cons, mapM_pens l]; rfl

theorem readMode_used {h : Heap String} {out m : ℕ} {l : List (Pen String)} (hu : Used h out m l) : readMode h out m = .ok l := by
  obtain ⟨L, b, h1, h2, h3⟩ := hu
  unfold readMode
  rw [h1]
  simp only
  rw [h2]
  simp only
  rw [h3]
  exact mapM_pens l

/-- The caller's penalties for mode `m`; none if `regs` is not given. -/
def Caller (h : Heap String) (regs : Option (Val String)) (m : ℕ) (l : List (Pen String)) : Prop :=
  match regs with
  | none => l = []
  | some v => UserList h v m l

/-- `regs` is not a generator that yields itself. -/
def NotSelf (h : Heap String) (regs : Option (Val String)) : Prop := ∀ b L, regs = some (.ref b) → h[b]? = some (.gen L) → .ref b ∉ L

/-- The settings the parser gets. -/
def Call.settings (W : World I K R J) (c : Call I K R J) : Settings String := ⟨c.svd, c.auxInit, c.dualInit, W.hasTV⟩

theorem bind_ok' {β γ : Type} {x : Except PyErr β} {f : β → Except PyErr γ} {y : γ} : x >>= f = .ok y ↔ ∃ b, x = .ok b ∧ f b = .ok y := by
  cases x with
  | error e => simp [bind, Except.bind]
  | ok b => simp [bind, Except.bind]

/-- What happens before the loop does not depend on the arguments of the loop. -/
theorem call_parts {W : World I K R J} {c : Call I K R J} {h h' : Heap String} {res : Result I K R J} (hs : NotSelf h c.regs) (e : call W c h = (h', .ok res)) :
    ∃ start l2 args, initializeCmf W.init c.init = .ok start ∧ l2List (γ := Arg) id (.user c.l2) = .ok l2 ∧ listifyAll c.args = .ok args ∧
      ∃ parsed user : ℕ → List (Pen String), (∀ m < 3, parseMode W.negEig (c.settings W) (args m) = .ok (parsed m) ∧ Caller h c.regs m (user m)) ∧
        ∀ a : Args, call W { c with loop := a } h = (h', solve W { c with loop := a } start
          ((l2.getD 0 .none).real, (l2.getD 1 .none).real, (l2.getD 2 .none).real) (parsed 0 ++ user 0) (parsed 1 ++ user 1) (parsed 2 ++ user 2)) := by
  unfold call at e
  split at e
  · cases e
  rename_i hsvd
  cases h1 : initializeCmf W.init c.init with
  | error x => rw [h1] at e; cases e
  | ok start =>
    rw [h1] at e
    simp only at e
    cases h2 : l2List (γ := Arg) id (.user c.l2) with
    | error x => rw [h2] at e; cases e
    | ok l2 =>
      rw [h2] at e
      simp only at e
      rcases h3 : parseAll W.negEig ⟨c.svd, c.auxInit, c.dualInit, W.hasTV⟩ c.args c.regs h with ⟨k, x | out⟩
      · rw [h3] at e; cases e
      · rw [h3] at e
        simp only [Prod.mk.injEq] at e
        obtain ⟨rfl, -⟩ := e
        have key : ∃ args, listifyAll c.args = .ok args ∧ ∀ m < 3, ∃ parsed user, parseMode W.negEig (c.settings W) (args m) = .ok parsed ∧
            Caller h c.regs m user ∧ Used k out m (parsed ++ user) := by
          cases hr : c.regs with
          | none =>
            rw [hr] at h3
            obtain ⟨-, args, ha, hm⟩ := C48_default _ _ _ _ _ _ h3
            refine ⟨args, ha, fun m hm3 => ?_⟩
            obtain ⟨parsed, hp, hu⟩ := hm m hm3
            exact ⟨parsed, [], hp, rfl, by simpa using hu⟩
          | some v =>
            rw [hr] at h3
            obtain ⟨-, args, ha, hm⟩ := C48 _ _ _ v _ _ _ (fun b L hb => hs b L (by rw [hr, hb])) h3
            exact ⟨args, ha, fun m hm3 => hm m hm3⟩
        obtain ⟨args, ha, hm⟩ := key
        obtain ⟨p0, u0, a0, b0, c0⟩ := hm 0 (by omega)
        obtain ⟨p1, u1, a1, b1, c1⟩ := hm 1 (by omega)
        obtain ⟨p2, u2, a2, b2, c2⟩ := hm 2 (by omega)
        refine ⟨start, l2, args, rfl, rfl, ha, fun m => if m = 0 then p0 else if m = 1 then p1 else p2,
          fun m => if m = 0 then u0 else if m = 1 then u1 else u2, fun m hm3 => ?_, fun a => ?_⟩
        · obtain rfl | rfl | rfl : m = 0 ∨ m = 1 ∨ m = 2 := by omega
          · exact ⟨a0, b0⟩
          · exact ⟨a1, b1⟩
          · exact ⟨a2, b2⟩
        · unfold call
          rw [if_neg hsvd]
          simp only [h1, h2, h3]
          rw [readMode_used c0, readMode_used c1, readMode_used c2]
          rfl

theorem call_ok {W : World I K R J} {c : Call I K R J} {h h' : Heap String} {res : Result I K R J} (hs : NotSelf h c.regs) (e : call W c h = (h', .ok res)) :
    ∃ start l2 args, initializeCmf W.init c.init = .ok start ∧ l2List (γ := Arg) id (.user c.l2) = .ok l2 ∧ listifyAll c.args = .ok args ∧
      ∃ parsed user : ℕ → List (Pen String), (∀ m < 3, parseMode W.negEig (c.settings W) (args m) = .ok (parsed m) ∧ Caller h c.regs m (user m)) ∧
        solve W c start ((l2.getD 0 .none).real, (l2.getD 1 .none).real, (l2.getD 2 .none).real) (parsed 0 ++ user 0) (parsed 1 ++ user 1) (parsed 2 ++ user 2) =
          .ok res := by
  obtain ⟨start, l2, args, h1, h2, h3, parsed, user, h4, h5⟩ := call_parts hs e
  refine ⟨start, l2, args, h1, h2, h3, parsed, user, h4, ?_⟩
  have := h5 c.loop
  rw [show ({ c with loop := c.loop } : Call I K R J) = c from rfl, e, Prod.mk.injEq] at this
  exact this.2.symm

/-- The parts of a successful run after parsing. -/
structure Setup (W : World I K R J) (c : Call I K R J) (rA rB rC : List (Pen String)) where
  auxA : Fin rA.length → Matrix (Fin I) (Fin R) ℝ
  auxB : Fin rB.length → AuxB I R J
  auxC : Fin rC.length → Matrix (Fin K) (Fin R) ℝ
  dualA : Fin rA.length → Matrix (Fin I) (Fin R) ℝ
  dualB : Fin rB.length → Ragged I R J
  dualC : Fin rC.length → Matrix (Fin K) (Fin R) ℝ
  pensA : Fin rA.length → PenA I R
  pensB : Fin rB.length → PenB I R J
  pensC : Fin rC.length → PenC K R
  flags : Bool × Bool
  auxA_ok : ∀ p : Fin rA.length, W.auxA p (rA.get p) = .ok (auxA p)
  auxB_ok : ∀ p : Fin rB.length, W.auxB p (rB.get p) = .ok (auxB p)
  auxC_ok : ∀ p : Fin rC.length, W.auxC p (rC.get p) = .ok (auxC p)
  dualA_ok : ∀ p : Fin rA.length, W.dualA p (rA.get p) = .ok (dualA p)
  dualB_ok : ∀ p : Fin rB.length, W.dualB p (rB.get p) = .ok (dualB p)
  dualC_ok : ∀ p : Fin rC.length, W.dualC p (rC.get p) = .ok (dualC p)
  pensA_ok : ∀ p : Fin rA.length, W.penA (rA.get p) = .ok (pensA p)
  pensB_ok : ∀ p : Fin rB.length, W.penB (rB.get p) = .ok (pensB p)
  pensC_ok : ∀ p : Fin rC.length, W.penC (rC.get p) = .ok (pensC p)
  flags_ok : constFlags c.constFeas = .ok flags

namespace Setup

variable {W : World I K R J} {c : Call I K R J} {rA rB rC : List (Pen String)}

/-- The problem. -/
noncomputable def problem (S : Setup W c rA rB rC) (l2 : ℝ × ℝ × ℝ) : Problem I K R rA.length rB.length rC.length J :=
  c.problem W l2 S.flags S.pensA S.pensB S.pensC

/-- The initial state. -/
def state (S : Setup W c rA rB rC) (start : Start I K R J) : AOState I K R rA.length rB.length rC.length J :=
  ⟨start.weights, start.F, S.auxA, S.dualA, S.auxB, S.dualB, S.auxC, S.dualC⟩

/-- The setup does not depend on the tolerances and the iteration limit. -/
def withLoop (S : Setup W c rA rB rC) (a : Args) : Setup W { c with loop := a } rA rB rC where
  auxA := S.auxA
  auxB := S.auxB
  auxC := S.auxC
  dualA := S.dualA
  dualB := S.dualB
  dualC := S.dualC
  pensA := S.pensA
  pensB := S.pensB
  pensC := S.pensC
  flags := S.flags
  auxA_ok := S.auxA_ok
  auxB_ok := S.auxB_ok
  auxC_ok := S.auxC_ok
  dualA_ok := S.dualA_ok
  dualB_ok := S.dualB_ok
  dualC_ok := S.dualC_ok
  pensA_ok := S.pensA_ok
  pensB_ok := S.pensB_ok
  pensC_ok := S.pensC_ok
  flags_ok := S.flags_ok

end Setup

/-- With a setup, the call is the loop. -/
theorem solve_setup {W : World I K R J} {c : Call I K R J} {start : Start I K R J} {l2 : ℝ × ℝ × ℝ} {regsA regsB regsC : List (Pen String)}
    (S : Setup W c (dropRegs c.updA regsA) (dropRegs c.updB regsB) (dropRegs c.updC regsC)) :
    solve W c start l2 regsA regsB regsC = (cmfAoadmm (S.problem l2) c.loop (S.state start)).map fun out => ⟨_, _, _, out⟩ := by
  unfold solve
  simp only [seqFin_ok.2 S.auxA_ok, seqFin_ok.2 S.auxB_ok, seqFin_ok.2 S.auxC_ok, seqFin_ok.2 S.dualA_ok, seqFin_ok.2 S.dualB_ok, seqFin_ok.2 S.dualC_ok,
    seqFin_ok.2 S.pensA_ok, seqFin_ok.2 S.pensB_ok, seqFin_ok.2 S.pensC_ok, S.flags_ok]
  show (cmfAoadmm (S.problem l2) c.loop (S.state start) >>= fun out => pure _) = _
  cases cmfAoadmm (S.problem l2) c.loop (S.state start) <;> rfl

theorem solve_ok {W : World I K R J} {c : Call I K R J} {start : Start I K R J} {l2 : ℝ × ℝ × ℝ} {regsA regsB regsC : List (Pen String)} {res : Result I K R J}
    (e : solve W c start l2 regsA regsB regsC = .ok res) :
    ∃ (S : Setup W c (dropRegs c.updA regsA) (dropRegs c.updB regsB) (dropRegs c.updC regsC)) (out : _),
      cmfAoadmm (S.problem l2) c.loop (S.state start) = .ok out ∧ res = ⟨_, _, _, out⟩ := by
  unfold solve at e
  simp only [bind_ok', seqFin_ok] at e
  obtain ⟨xA, hxA, xB, hxB, xC, hxC, yA, hyA, yB, hyB, yC, hyC, pA, hpA, pB, hpB, pC, hpC, f, hf, out, ho, hr⟩ := e
  exact ⟨⟨xA, xB, xC, yA, yB, yC, pA, pB, pC, f, hxA, hxB, hxC, hyA, hyB, hyC, hpA, hpB, hpC, hf⟩, out, ho, (Except.ok.inj hr).symm⟩

end Verif.Whole
