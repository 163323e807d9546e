import Verif.Loop.Lemmas

/-!
# Lemmas on what the outer loop prints
-/

namespace Verif.Loop

open Verif.ADMM

variable {σ ι : Type}

/-- The iteration a printed line is about. -/
def Log.iter : Log → Option ℕ
  | .notComputed it _ => some it
  | .computed it _ _ _ _ => some it
  | .iteration it => some it
  | .initial _ => none
  | .converged _ _ => none
  | .reachedMax => none

/-- Whether the feasibility criterion holds for some gaps. -/
noncomputable def feasibleFor (a : Args) (g : Gaps) : Bool := truthy a.feasTol && checkFeasibility g (a.feasTol.getD 0)

/-- A line printed during iteration `it`, which leads from `p` to `s` with intermediate results `i`; `prev` is the last loss before it. -/
inductive LineOf (O : Ops σ ι) (a : Args) (it : ℕ) (s : σ) (i : ι) (prev : PyF) : Log → Prop
  | iteration : truthy a.tol = false → truthy a.absTol = false → a.returnErrors = false → LineOf O a it s i prev (.iteration it)
  | notComputed : (truthy a.tol || truthy a.absTol) = true → a.returnErrors = false → feasibleFor a (O.gaps s) = false →
      LineOf O a it s i prev (.notComputed it (O.gaps s))
  | computed : (a.returnErrors = true ∨ ((truthy a.tol || truthy a.absTol) = true ∧ feasibleFor a (O.gaps s) = true)) →
      LineOf O a it s i prev (.computed it (O.relError s i) prev (lossOf (O.relError s i) (O.penalty s)) (O.gaps s))

theorem LineOf.iter {O : Ops σ ι} {a : Args} {it : ℕ} {s : σ} {i : ι} {prev : PyF} {x : Log} (h : LineOf O a it s i prev x) : x.iter = some it := by
  cases h <;> rfl

/-- What an iteration prints. -/
theorem body_log {O : Ops σ ι} {a : Args} {s s' : Acc σ} {b : Bool} (h : body O a s = .ok (s', b)) :
    ∃ i x, O.sweep s.st = .ok (s'.st, i) ∧ LineOf O a s.nIter s'.st i (s.losses.getLastD .nan) x ∧
      ((b = false ∧ s'.log = s.log ++ if prints a.verbose s.nIter then [x] else []) ∨
        (b = true ∧ ∃ m, s'.stop = some m ∧
          s'.log = (s.log ++ if prints a.verbose s.nIter then [x] else []) ++ if a.verbose ≠ 0 then [.converged s.nIter m] else [])) := by
  unfold body at h
  split at h
  · cases h
  · rename_i st inter hs
    refine ⟨inter, ?_⟩
    split at h
    · rename_i hc1
      dsimp only at h
      split at h
      · rename_i hc
        cases h
        simp only [Bool.and_eq_true, Bool.not_eq_true'] at hc
        exact ⟨_, hs, .notComputed hc.1.1 hc.2 hc.1.2, .inl ⟨rfl, rfl⟩⟩
      · rename_i hc
        have hl : a.returnErrors = true ∨ ((truthy a.tol || truthy a.absTol) = true ∧ feasibleFor a (O.gaps st) = true) := by
          unfold feasibleFor
          cases hr : a.returnErrors
          · rw [hr] at hc hc1
            simp only [Bool.or_false] at hc1
            right
            refine ⟨hc1, ?_⟩
            by_contra hf
            rw [Bool.not_eq_true] at hf
            rw [hc1, hf] at hc
            exact hc rfl
          · exact .inl rfl
        unfold checkStop at h
        split at h
        · split at h
          · cases h
          · split at h
            · cases h; exact ⟨_, hs, .computed hl, .inr ⟨rfl, _, rfl, by simp⟩⟩
            · split at h
              · cases h; exact ⟨_, hs, .computed hl, .inr ⟨rfl, _, rfl, by simp⟩⟩
              · cases h; exact ⟨_, hs, .computed hl, .inl ⟨rfl, rfl⟩⟩
        · cases h; exact ⟨_, hs, .computed hl, .inl ⟨rfl, rfl⟩⟩
    · rename_i hc
      cases h
      simp only [Bool.or_eq_true, not_or, Bool.not_eq_true] at hc
      exact ⟨_, hs, .iteration hc.1.1 hc.1.2 hc.2, .inl ⟨rfl, rfl⟩⟩

/-- The iterations below `n` that are printed: multiples of a positive `verbose`. -/
def schedule (v : ℤ) (n : ℕ) : List ℕ := if 0 < v then (List.range n).filter fun it => decide (v ∣ (it : ℤ)) else []

theorem schedule_succ (v : ℤ) (n : ℕ) : schedule v (n + 1) = schedule v n ++ if prints v n then [n] else [] := by
  unfold schedule
  by_cases hv : 0 < v
  · have hd : prints v n = decide (v ∣ (n : ℤ)) := by
      have h0 : decide (v ≠ 0) = true := by simp; omega
      have h1 : decide (v > 0) = true := by simpa using hv
      rw [prints, h0, h1, Bool.true_and, Bool.and_true, decide_eq_decide]
      exact (Int.dvd_iff_emod_eq_zero).symm
    rw [if_pos hv, if_pos hv, List.range_succ, List.filter_append, hd]
    congr 1
    by_cases hn : v ∣ (n : ℤ) <;> simp [hn]
  · have : prints v n = false := by simp [prints, hv]
    rw [if_neg hv, if_neg hv, this]; rfl

/-- The lines printed so far. -/
structure Lines (O : Ops σ ι) (a : Args) (init : σ) (s : Acc σ) (lines : List Log) : Prop where
  iters : lines.map Log.iter = (schedule a.verbose s.nIter).map some
  line : ∀ x ∈ lines, ∃ it p s' i prev, it < s.nIter ∧ sweeps O it init = .ok p ∧ O.sweep p = .ok (s', i) ∧ LineOf O a it s' i prev x ∧
    (a.returnErrors = true → s.losses[it]? = some prev)

theorem lines_body {O : Ops σ ι} {a : Args} {none : ι} {init : σ} {l : List (σ × ι)} {s s' : Acc σ} {b : Bool} {lines : List Log}
    (hf : Follows O a none init l s) (hl : Lines O a init s lines) (h : body O a s = .ok (s', b)) :
    ∃ ls, Lines O a init s' (lines ++ ls) ∧
      ((b = false ∧ s'.log = s.log ++ ls) ∨
        (b = true ∧ ∃ m, s'.stop = some m ∧ s'.log = s.log ++ ls ++ if a.verbose ≠ 0 then [.converged (s'.nIter - 1) m] else [])) := by
  obtain ⟨i, x, hs, hx, hlog⟩ := body_log h
  obtain ⟨i', hs', hn, -, -, hlist⟩ := body_ok h
  have hlosses : a.returnErrors = true → s.losses.length = s.nIter + 1 := fun hr => by rw [(hf.lists hr).2.2, List.length_map, hf.len]
  refine ⟨if prints a.verbose s.nIter then [x] else [], ⟨?_, fun y hy => ?_⟩, ?_⟩
  · rw [List.map_append, hl.iters, hn, schedule_succ, List.map_append]
    congr 1
    split <;> simp [hx.iter]
  · rcases List.mem_append.mp hy with hy | hy
    · obtain ⟨it, p, t, j, prev, h1, h2, h3, h4, h5⟩ := hl.line y hy
      refine ⟨it, p, t, j, prev, by omega, h2, h3, h4, fun hr => ?_⟩
      rw [(hlist hr).2.2, List.getElem?_append_left (by rw [hlosses hr]; omega)]
      exact h5 hr
    · have hyx : y = x := by
        split at hy <;> simp at hy
        exact hy
      subst hyx
      have hsw := hf.hist.sweeps_eq
      rw [hf.len, Nat.add_sub_cancel] at hsw
      refine ⟨s.nIter, s.st, s'.st, i, _, by omega, hsw, hs, hx, fun hr => ?_⟩
      rw [(hlist hr).2.2, List.getElem?_append_left (by rw [hlosses hr]; omega), List.getLastD_eq_getLast?, List.getLast?_eq_getElem?, hlosses hr,
        Nat.add_sub_cancel, List.getElem?_eq_getElem (by rw [hlosses hr]; omega)]
      rfl
  · rcases hlog with hlog | ⟨hb, m, hm, hlog⟩
    · exact .inl hlog
    · exact .inr ⟨hb, m, hm, by rw [hlog, hn]; rfl⟩

theorem run_log {O : Ops σ ι} {a : Args} {none : ι} {init : σ} : ∀ {n : ℕ} {l : List (σ × ι)} {s s' : Acc σ} {head lines : List Log},
    Follows O a none init l s → Lines O a init s lines → s.log = head ++ lines → s.stop = .none → run O a n s = .ok s' →
    ∃ lines' last, Lines O a init s' lines' ∧ s'.log = head ++ lines' ++ (if a.verbose ≠ 0 then [last] else []) ∧
      ((s'.stop = .none ∧ s'.nIter = s.nIter + n ∧ last = .reachedMax) ∨
        (∃ m, s'.stop = some m ∧ s.nIter < s'.nIter ∧ s'.nIter ≤ s.nIter + n ∧ last = .converged (s'.nIter - 1) m))
  | 0, l, s, s', head, lines, hf, hl, hh, hstop, h => by
    simp only [run, Except.ok.injEq] at h
    subst h
    exact ⟨lines, .reachedMax, ⟨hl.iters, hl.line⟩, by simp [hh], .inl ⟨hstop, rfl, rfl⟩⟩
  | n + 1, l, s, s', head, lines, hf, hl, hh, hstop, h => by
    rw [run] at h
    split at h
    · cases h
    · rename_i t hb
      cases h
      obtain ⟨ls, h1, h2⟩ := lines_body hf hl hb
      obtain ⟨_, -, hn, -⟩ := body_ok hb
      rcases h2 with ⟨h2, -⟩ | ⟨-, m, hm, h2⟩
      · cases h2
      · exact ⟨lines ++ ls, .converged (s'.nIter - 1) m, h1, by rw [h2, hh]; simp, .inr ⟨m, hm, by omega, by omega, rfl⟩⟩
    · rename_i t hb
      obtain ⟨ls, h1, h2⟩ := lines_body hf hl hb
      obtain ⟨i, hf'⟩ := follows_body hf hb
      obtain ⟨_, -, hn, -, hst, -⟩ := body_ok hb
      rcases h2 with ⟨-, h2⟩ | ⟨h2, -⟩
      · obtain ⟨lines', last, g1, g2, g3⟩ := run_log (head := head) hf' h1 (by rw [h2, hh, List.append_assoc]) ((hst rfl).trans hstop) h
        refine ⟨lines', last, g1, g2, ?_⟩
        rcases g3 with ⟨g3, g4, g5⟩ | ⟨m, g3, g4, g5, g6⟩
        · exact .inl ⟨g3, by omega, g5⟩
        · exact .inr ⟨m, g3, by omega, by omega, g6⟩
      · cases h2

end Verif.Loop
