import Verif.Props.Shapes

/-!
# C111: ranks of one
-/

namespace Verif.Props

open Verif.Shapes

section
variable {rows : List ℕ} {k R : ℕ}

theorem fold_some {α : Type} {f : α → Except PyErr Sh} {s : Sh} {l : List α} (hl : l ≠ []) (h : ∀ x ∈ l, f x = .ok s) : l.foldlM (fun t x => do addTo t (← f x)) none = .ok (some s) := by
  obtain ⟨x, l, rfl⟩ := List.exists_cons_of_ne_nil hl
  rw [List.foldlM_cons, h x List.mem_cons_self, ok_bind]
  exact foldlM_const _ _ l fun y hy => by rw [h y (List.mem_cons_of_mem _ hy), ok_bind]; simp [addTo, Except.bind]

/-- Right-hand sides of rank 1 and variables of another rank do not fit a system of rank 1. -/
theorem solve_bad {a rank : ℕ} (h : rank ≠ 1) : (do dot (← dot (← plus (some (a, rank)) (a, 1)) (svd (1, 1)).1) (svd (1, 1)).2) = (.error .valueError : Except PyErr Sh) := by
  have : plus (some (a, rank)) (a, 1) = .ok (a, rank) := by simp [plus, both, fit, h, Except.bind]
  rw [this, ok_bind, dot, if_neg (by simpa [svd] using h)]
  rfl

theorem innerB_bad {check : Bool} {rank p : ℕ} (hr : rank ≠ 1) (hp : p ≠ 0) (hne : rows ≠ []) {Bs : List Sh} {s' : List Sh × List (List Sh × List Sh)} :
    innerB check (rows.map fun j => (j, k)) (rows.map fun j => ((j, 1), (1, 1))) (Bs, List.replicate p (rows.map fun j => (j, rank), rows.map fun j => (j, rank))) ≠ .ok s' := by
  intro h
  unfold innerB at h
  rw [mapM_const (y := rows.map fun j => (j, rank)) fun q hq => by rw [(List.mem_replicate.1 hq).2]; exact each_self _, ok_bind, List.length_replicate] at h
  obtain ⟨B, hB, -⟩ := bind_ok.1 h
  obtain ⟨j, l, rfl⟩ := List.exists_cons_of_ne_nil hne
  obtain ⟨a, b, hab⟩ := foldlM_each hB 0 (by simp)
  obtain ⟨e, he, -⟩ := bind_ok.1 hab
  unfold entryB at he
  rw [show item (List.map (fun j => (((j, 1), (1, 1)) : Sh × Sh)) (j :: l)) 0 = .ok ((j, 1), (1, 1)) from rfl, ok_bind,
    fold_some (s := (j, rank)) (by simpa using hp) (fun x hx => by rw [(List.mem_replicate.1 hx).2]; rfl), ok_bind, solve_bad hr] at he
  cases he

theorem innerC_bad {check : Bool} {rank p : ℕ} (hr : rank ≠ 1) (hp : p ≠ 0) {C : Sh} {s' : Sh × List (Sh × Sh)} :
    innerC check ((k, 1), (1, 1)) (C, List.replicate p ((k, rank), (k, rank))) ≠ .ok s' := by
  intro h
  unfold innerC at h
  rw [fold_some (s := (k, rank)) (by simpa using hp) (fun x hx => by rw [(List.mem_replicate.1 hx).2, both_self]), ok_bind] at h
  obtain ⟨u, hu, h⟩ := bind_ok.1 h
  obtain ⟨w, hw, h⟩ := bind_ok.1 h
  obtain ⟨z, hz, h⟩ := bind_ok.1 h
  have := solve_bad (a := k) hr
  rw [hu, ok_bind, hw, ok_bind, hz] at this
  cases this

theorem startVars_prefix (hne : rows ≠ []) {Y : List Sh} {rank : ℕ} (o : Opts) (pA pB pC : ℕ) : startVars ((rows.map fun j => (j, k)) ++ Y) rank o pA pB pC =
    .ok ⟨List.replicate (if o.updA then pA else 0) (((rows.map fun j => ((j, k) : Sh)) ++ Y).length, rank), List.replicate (if o.updA then pA else 0) (((rows.map fun j => ((j, k) : Sh)) ++ Y).length, rank),
      List.replicate (if o.updB then pB else 0) (((rows.map fun j => ((j, k) : Sh)) ++ Y).map fun s => (s.1, rank)),
      List.replicate (if o.updB then pB else 0) (((rows.map fun j => ((j, k) : Sh)) ++ Y).map fun s => (s.1, rank)),
      List.replicate (if o.updC then pC else 0) (k, rank), List.replicate (if o.updC then pC else 0) (k, rank)⟩ := by
  unfold startVars
  obtain ⟨j, l, rfl⟩ := List.exists_cons_of_ne_nil hne
  simp only [show item (List.map (fun j => ((j, k) : Sh)) (j :: l) ++ Y) 0 = .ok (j, k) from rfl, ok_bind, pure_eq_ok]
  rw [mapM_const (f := fun _ : Unit => Except.ok (k, rank)) (y := (k, rank)) fun q hq => rfl, ok_bind, List.length_replicate]

theorem updateB_rest {const check : Bool} {n : ℕ} {X : List Sh} {s s' : Fac × Vars} (h : updateB const check n X s = .ok s') :
    s'.1.A = s.1.A ∧ s'.1.C = s.1.C ∧ s'.2.auxA = s.2.auxA ∧ s'.2.dualA = s.2.dualA ∧ s'.2.auxC = s.2.auxC ∧ s'.2.dualC = s.2.dualC ∧ (n = 0 → s'.1.Bs = s.1.Bs) := by
  unfold updateB at h
  obtain ⟨lin, hl, h⟩ := bind_ok.1 h
  split at h
  · cases h
  obtain ⟨r, hr, h⟩ := bind_ok.1 h
  cases h
  refine ⟨rfl, rfl, rfl, rfl, rfl, rfl, fun hn => ?_⟩
  subst hn
  cases hr
  rfl

theorem updateC_rest {check : Bool} {n : ℕ} {X : List Sh} {s s' : Fac × Vars} (h : updateC check n X s = .ok s') :
    s'.1.A = s.1.A ∧ s'.2.auxA = s.2.auxA ∧ s'.2.dualA = s.2.dualA := by
  unfold updateC at h
  obtain ⟨lin, hl, h⟩ := bind_ok.1 h
  obtain ⟨r, hr, h⟩ := bind_ok.1 h
  cases h
  exact ⟨rfl, rfl, rfl⟩

theorem updateB_free {const check : Bool} {n : ℕ} {v : Vars} (ha : v.auxB = []) {s' : Fac × Vars}
    (h : updateB const check n (rows.map fun j => (j, k)) (facOf rows k R, v) = .ok s') : s'.1.Bs = (facOf rows k R).Bs := by
  unfold updateB at h
  obtain ⟨lin, hl, h⟩ := bind_ok.1 h
  rw [linB_fit] at hl
  cases hl
  split at h
  · cases h
  obtain ⟨r, hr, h⟩ := bind_ok.1 h
  cases h
  simp only [ha, List.zip_nil_left] at hr
  have := times_const (innerB_fit (rows := rows) (k := k) (R := R) check 0) n
  rw [List.replicate_zero] at this
  rw [show (facOf rows k R).Bs = rows.map fun j => (j, R) from rfl, this] at hr
  cases hr
  rfl

theorem updateB_bad {const check : Bool} {n rank p : ℕ} (hr : rank ≠ 1) (hp : p ≠ 0) (hne : rows ≠ []) (hn : n ≠ 0) {v : Vars} (ha : v.auxB = List.replicate p (rows.map fun j => (j, rank)))
    (hd : v.dualB = List.replicate p (rows.map fun j => (j, rank))) {s' : Fac × Vars} : updateB const check n (rows.map fun j => (j, k)) (facOf rows k 1, v) ≠ .ok s' := by
  intro h
  unfold updateB at h
  obtain ⟨lin, hl, h⟩ := bind_ok.1 h
  rw [linB_fit] at hl
  cases hl
  split at h
  · cases h
  obtain ⟨r, hr', -⟩ := bind_ok.1 h
  obtain ⟨q, hq⟩ := times_first hn hr'
  rw [ha, hd, List.zip_replicate'] at hq
  exact innerB_bad hr hp hne hq

theorem mapM_mem {α β : Type} {f : α → Except PyErr β} : ∀ {l : List α} {r : List β}, l.mapM f = .ok r → ∀ y ∈ r, ∃ x ∈ l, f x = .ok y
  | [], r, h, y, hy => by cases h; cases hy
  | a :: l, r, h, y, hy => by
    rw [List.mapM_cons] at h
    obtain ⟨z, hz, h⟩ := bind_ok.1 h
    obtain ⟨ys, hys, h⟩ := bind_ok.1 h
    cases h
    rcases List.mem_cons.1 hy with rfl | hy
    · exact ⟨a, List.mem_cons_self, hz⟩
    · obtain ⟨x, hx, e⟩ := mapM_mem hys y hy
      exact ⟨x, List.mem_cons_of_mem _ hx, e⟩

theorem square_of_both {a b : ℕ} {s : Sh} (h : both (a, a) (b, b) = .ok s) : s.1 = s.2 := by
  unfold both at h
  obtain ⟨x, hx, h⟩ := bind_ok.1 h
  obtain ⟨y, hy, h⟩ := bind_ok.1 h
  cases h
  simp only at hx hy
  rw [hx] at hy
  cases hy
  rfl

theorem linA_square {X : List Sh} {F : Fac} {lin : List (ℕ × Sh)} (h : linA X F = .ok lin) : ∀ q ∈ lin, q.2.1 = q.2.2 := by
  unfold linA at h
  obtain ⟨c, hc, h⟩ := bind_ok.1 h
  obtain ⟨c1, c2⟩ := c
  rw [dot_ok] at hc
  intro q hq
  obtain ⟨p, -, hp⟩ := mapM_mem h q hq
  obtain ⟨t, -, hp⟩ := bind_ok.1 hp
  obtain ⟨d, hd, hp⟩ := bind_ok.1 hp
  obtain ⟨e, he, hp⟩ := bind_ok.1 hp
  cases hp
  obtain ⟨d1, d2⟩ := d
  rw [dot_ok] at hd
  obtain ⟨-, rfl, rfl⟩ := hc
  obtain ⟨-, rfl, rfl⟩ := hd
  exact square_of_both he

theorem foldlM_head {σ : Type} {f : σ → ℕ → Except PyErr σ} {n : ℕ} (hn : 0 < n) {s r : σ} (h : (List.range n).foldlM f s = .ok r) : ∃ s', f s 0 = .ok s' := by
  obtain ⟨n, rfl⟩ : ∃ m, n = m + 1 := ⟨n - 1, by omega⟩
  rw [List.range_succ_eq_map, List.foldlM_cons] at h
  obtain ⟨s', h, -⟩ := bind_ok.1 h
  exact ⟨s', h⟩

theorem both_one {s u : Sh} (h : both s (1, 1) = .ok u) : u = s := by
  have hf : ∀ {a b : ℕ}, fit a 1 = .ok b → b = a := by
    intro a b h
    unfold fit at h
    split_ifs at h <;> cases h <;> rfl
  unfold both at h
  obtain ⟨x, hx, h⟩ := bind_ok.1 h
  obtain ⟨y, hy, h⟩ := bind_ok.1 h
  cases h
  rw [hf hx, hf hy]

/-- What an inner iteration of the A-update that does not raise says about the rank: it is that of A, or it is 1 and the feasibility penalty is constant. -/
theorem innerA_rank {const check : Bool} {X : List Sh} {lin : List (ℕ × Sh)} (hq : ∀ q ∈ lin, q.2.1 = q.2.2) {n rank p : ℕ} (hX : X.length = n) (hn : n ≠ 0) (hp : p ≠ 0) (h0 : R = rank ∨ R = 1 ∨ rank = 1)
    {s' : Sh × List (Sh × Sh)} (h : innerA const check X lin R ((n, R), List.replicate p ((n, rank), (n, rank))) = .ok s') : rank = R ∨ (rank = 1 ∧ const = true) := by
  unfold innerA at h
  rw [mapM_const (y := (n, rank)) fun q hq => by rw [(List.mem_replicate.1 hq).2, both_self], ok_bind, List.length_replicate] at h
  obtain ⟨A, hA, h⟩ := bind_ok.1 h
  have hA' : A = (n, R) := by
    refine foldlM_inv (fun A => A = (n, R)) ?_ hA rfl
    intro A i A' e hs
    obtain ⟨l, -, hs⟩ := bind_ok.1 hs
    unfold setRow at hs
    split_ifs at hs
    cases hs
    exact e
  subst hA'
  obtain ⟨S', hS⟩ := foldlM_head (by omega) hA
  obtain ⟨l, hl, hS⟩ := bind_ok.1 hS
  unfold entryA at hl
  obtain ⟨q, hq0, hl⟩ := bind_ok.1 hl
  rw [item_ok] at hq0
  have hlin : 0 < lin.length := (List.getElem?_eq_some_iff.1 hq0).1
  by_cases hr : rank = R
  · exact .inl hr
  · rcases h0 with h0 | rfl | rfl
    · exact absurd h0.symm hr
    · exfalso
      obtain ⟨lhs, hlhs, hl⟩ := bind_ok.1 hl
      obtain rfl := both_one hlhs
      obtain ⟨t, ht, hl⟩ := bind_ok.1 hl
      have hsq := hq q (List.mem_of_getElem? hq0)
      obtain ⟨w, hw, hl⟩ := bind_ok.1 hl
      obtain ⟨z, hz, hl⟩ := bind_ok.1 hl
      obtain ⟨z', hz', hl⟩ := bind_ok.1 hl
      cases hl
      have e1 : (List.replicate p ((n, rank) : Sh)).foldlM (fun t s => do addTo t (1, ← item (rowsOf s) 0)) none = .ok (some (1, rank)) := by
        rw [← fold_some (f := fun s : Sh => (item (rowsOf s) 0).bind fun x => .ok (1, x)) (l := List.replicate p ((n, rank) : Sh)) (s := (1, rank)) (by simpa using hp) fun x hx => by
          rw [(List.mem_replicate.1 hx).2, item_rowsOf (s := (n, rank)) (Nat.pos_of_ne_zero hn)]; rfl]
        congr 1
        funext t s
        cases item (rowsOf s) 0 <;> rfl
      rw [e1] at ht
      cases ht
      unfold setRow at hS
      rw [if_pos (Nat.pos_of_ne_zero hn)] at hS
      have hz2 : z'.2 = 1 := by
        by_contra hc
        rw [if_neg (by simpa using hc)] at hS
        cases hS
      obtain ⟨z1, z2⟩ := z
      obtain ⟨y1, y2⟩ := z'
      rw [dot_ok] at hz hz'
      have hw2 : w.2 = rank := by
        simp only [plus, both, fit_self, Except.bind] at hw
        unfold fit at hw
        split_ifs at hw <;> cases hw <;> rfl
      simp only [svd] at hz hz' hz2
      omega
    · right
      refine ⟨rfl, ?_⟩
      by_contra hc
      have hc : const = false := by simpa using hc
      subst hc
      obtain ⟨vs, hvs, -⟩ := bind_ok.1 h
      obtain ⟨y, hy⟩ := mapM_each hvs ((n, 1), (n, 1)) (by simp [hp])
      unfold penaltyA at hy
      obtain ⟨sh, hsh, hy⟩ := bind_ok.1 hy
      have : sh = (n, R) := by
        simp only [both, fit_self, Except.bind] at hsh
        simp only [fit, if_neg (Ne.symm hr)] at hsh
        cases hsh
        rfl
      subst this
      obtain ⟨aux, haux, -⟩ := bind_ok.1 hy
      rw [if_neg Bool.false_ne_true] at haux
      obtain ⟨b, hab⟩ := foldlM_head hlin haux
      rw [item_rowsOf (s := (n, R)) (Nat.pos_of_ne_zero hn), ok_bind, item_rowsOf (s := (n, 1)) (Nat.pos_of_ne_zero hn), ok_bind, setRow, if_pos (Nat.pos_of_ne_zero hn),
        if_neg (by simpa using Ne.symm hr)] at hab
      cases hab

/-- C111, ranks: if a mode with a penalty is updated, a call that returns had the rank of the initial factorization, or the requested rank is 1 and A has no penalty or a constant feasibility penalty. -/
theorem C111_rank_one_partial {o : Opts} {X : List Sh} {rank pA pB pC N : ℕ} {F' : Fac} (h : fit_cmf o X rank pA pB pC N (facOf rows k R) = .ok F') (hne : rows ≠ []) (hN : N ≠ 0)
    (hp : (o.updA = true ∧ o.nA ≠ 0 ∧ pA ≠ 0) ∨ (o.updB = true ∧ o.nB ≠ 0 ∧ pB ≠ 0) ∨ (o.updC = true ∧ o.nC ≠ 0 ∧ pC ≠ 0)) :
    rank = R ∨ (rank = 1 ∧ (o.updA = true → o.nA ≠ 0 → pA ≠ 0 → o.constA = true)) := by
  have h0 : R = rank ∨ R = 1 ∨ rank = 1 := by
    have := C111_rank_partial h hne (by tauto)
    tauto
  have hfit := C111_rejects_partial h hN
  have hX := C111_prefix h
  obtain ⟨v, s, hv, -, -, hs⟩ := fit_cmf_ok h
  obtain ⟨s', hs⟩ := times_first hN hs
  unfold sweep at hs
  obtain ⟨s₁, h1, hs⟩ := bind_ok.1 hs
  obtain ⟨s₂, h2, hs⟩ := bind_ok.1 hs
  obtain ⟨s₃, h3, -⟩ := bind_ok.1 hs
  obtain ⟨Y, rfl⟩ := hX
  rw [startVars_prefix hne] at hv
  cases hv
  have hA1 : s₁.1.A = (rows.length, R) ∧ s₁.2.auxA = List.replicate (if o.updA then pA else 0) (((rows.map fun j => ((j, k) : Sh)) ++ Y).length, rank) ∧
      s₁.2.dualA = List.replicate (if o.updA then pA else 0) (((rows.map fun j => ((j, k) : Sh)) ++ Y).length, rank) := by
    split at h1
    · obtain ⟨a, -, b, c, -⟩ := updateB_rest h1
      exact ⟨a, b, c⟩
    · cases h1
      exact ⟨rfl, rfl, rfl⟩
  have hA2 : s₂.1.A = (rows.length, R) ∧ s₂.2.auxA = List.replicate (if o.updA then pA else 0) (((rows.map fun j => ((j, k) : Sh)) ++ Y).length, rank) ∧
      s₂.2.dualA = List.replicate (if o.updA then pA else 0) (((rows.map fun j => ((j, k) : Sh)) ++ Y).length, rank) := by
    split at h2
    · obtain ⟨a, b, c⟩ := updateC_rest h2
      exact ⟨a.trans hA1.1, b.trans hA1.2.1, c.trans hA1.2.2⟩
    · cases h2
      exact hA1
  -- the A-update
  have keyA : o.updA = true → o.nA ≠ 0 → pA ≠ 0 → rank = R ∨ (rank = 1 ∧ o.constA = true) := by
    intro hu hn hpA
    have hY : Y = [] := by
      have := hfit (.inr ⟨hu, hn⟩)
      unfold FitsShape at this
      simpa using this
    subst hY
    rw [List.append_nil] at *
    rw [hu, if_pos rfl] at h3
    obtain ⟨t, ht, -⟩ := bind_ok.1 h3
    unfold updateA at ht
    obtain ⟨lin, hl, ht⟩ := bind_ok.1 ht
    split at ht
    · cases ht
    obtain ⟨-, -, ht⟩ := bind_ok.1 ht
    obtain ⟨r, hr, -⟩ := bind_ok.1 ht
    obtain ⟨q, hq⟩ := times_first hn hr
    rw [hA2.1, hA2.2.1, hA2.2.2, List.zip_replicate', if_pos hu, List.length_map] at hq
    exact innerA_rank (linA_square hl) (by simp) (by simpa using hne) hpA h0 hq
  by_cases hr : rank = R
  · exact .inl hr
  right
  suffices hone : rank = 1 by
    refine ⟨hone, fun a b c => ?_⟩
    rcases keyA a b c with h | h
    · exact absurd h hr
    · exact h.2
  by_contra hr1
  obtain rfl : R = 1 := by tauto
  -- the B-update
  have keyB : ¬ (o.updB = true ∧ o.nB ≠ 0 ∧ pB ≠ 0) := by
    rintro ⟨hu, hn, hpB⟩
    have hY : Y = [] := by
      have := hfit (.inl ⟨hu, hn⟩)
      unfold FitsShape at this
      simpa using this
    subst hY
    rw [List.append_nil] at h1
    rw [if_pos hu] at h1
    exact updateB_bad hr1 hpB hne hn (by simp [hu]) (by simp [hu]) h1
  rcases hp with ⟨a, b, c⟩ | hp | ⟨hu, hn, hpC⟩
  · rcases keyA a b c with h | h
    · exact hr h
    · exact hr1 h.1
  · exact keyB hp
  · have hBs : s₁.1 = facOf rows k 1 ∧ s₁.2.auxC = List.replicate pC (k, rank) ∧ s₁.2.dualC = List.replicate pC (k, rank) := by
      split at h1
      · rename_i hb
        obtain ⟨a, b, -, -, c, d, e⟩ := updateB_rest h1
        have c : s₁.2.auxC = List.replicate pC (k, rank) := by simpa [hu] using c
        have d : s₁.2.dualC = List.replicate pC (k, rank) := by simpa [hu] using d
        have : s₁.1.Bs = (facOf rows k 1).Bs := by
          by_cases hn0 : o.nB = 0
          · exact e hn0
          · have hp0 : pB = 0 := by
              by_contra hc
              exact keyB ⟨hb, hn0, hc⟩
            have hY : Y = [] := by
              have := hfit (.inl ⟨hb, hn0⟩)
              unfold FitsShape at this
              simpa using this
            subst hY
            rw [List.append_nil] at h1
            exact updateB_free (by simp [hp0]) h1
        obtain ⟨⟨A, Bs, C⟩, w⟩ := s₁
        simp only at a b this
        exact ⟨by rw [a, b, this], c, d⟩
      · cases h1
        exact ⟨rfl, rfl, rfl⟩
    rw [if_pos hu] at h2
    unfold updateC at h2
    obtain ⟨lin, hl, h2⟩ := bind_ok.1 h2
    have hl' : linC ((rows.map fun j => (j, k)) ++ Y) (facOf rows k 1) = linC (rows.map fun j => (j, k)) (facOf rows k 1) := by
      unfold linC
      rw [zip_extra (by simp [facOf, rowsOf])]
    rw [hBs.1, hl', linC_fit hne] at hl
    cases hl
    obtain ⟨r, hr, -⟩ := bind_ok.1 h2
    obtain ⟨q, hq⟩ := times_first hn hr
    rw [hBs.2.1, hBs.2.2, List.zip_replicate'] at hq
    exact innerC_bad hr1 hpC hq

/-! ### A requested rank of one -/

/-- State of a call whose auxiliary and dual variables have ranks of their own. -/
def varsMix (rows : List ℕ) (k rA rB rC pA pB pC : ℕ) : Vars :=
  ⟨List.replicate pA (rows.length, rA), List.replicate pA (rows.length, rA), List.replicate pB (rows.map fun j => (j, rB)), List.replicate pB (rows.map fun j => (j, rB)),
    List.replicate pC (k, rC), List.replicate pC (k, rC)⟩

section
variable {r a : ℕ} (hr : r = 1 ∨ r = R)
include hr

theorem both_left : both (a, r) (a, R) = .ok (a, R) := by
  rcases hr with rfl | rfl
  · by_cases h : 1 = R <;> simp [both, fit, Except.bind, h]
  · exact both_self

theorem both_right : both (a, R) (a, r) = .ok (a, R) := by
  rcases hr with rfl | rfl
  · by_cases h : R = 1 <;> simp [both, fit, Except.bind, h]
  · exact both_self

theorem each_left : each (rows.map fun j => (j, r)) (rows.map fun j => (j, R)) = .ok (rows.map fun j => (j, R)) := by
  unfold each
  rw [List.zip_map', mapM_ok _ (fun p => p.2) _ fun p hp => ?_]
  · rw [List.map_map]; rfl
  · obtain ⟨j, -, rfl⟩ := List.mem_map.1 hp
    exact both_left hr

theorem each_right : each (rows.map fun j => (j, R)) (rows.map fun j => (j, r)) = .ok (rows.map fun j => (j, R)) := by
  unfold each
  rw [List.zip_map', mapM_ok _ (fun p => p.1) _ fun p hp => ?_]
  · rw [List.map_map]; rfl
  · obtain ⟨j, -, rfl⟩ := List.mem_map.1 hp
    exact both_right hr

theorem plus_one {t : Option Sh} (h : t = none ∨ t = some (a, r)) : plus t (a, R) = .ok (a, R) := by
  rcases h with rfl | rfl
  · rfl
  · exact both_left hr

theorem innerB_one (check : Bool) (p : ℕ) : innerB check (rows.map fun j => (j, k)) (rows.map fun j => ((j, R), (R, R)))
    (rows.map fun j => (j, R), List.replicate p (rows.map fun j => (j, r), rows.map fun j => (j, r))) =
    .ok (rows.map fun j => (j, R), List.replicate p (rows.map fun j => (j, R), rows.map fun j => (j, R))) := by
  unfold innerB
  rw [mapM_const (y := rows.map fun j => (j, r)) fun q hq => by rw [(List.mem_replicate.1 hq).2]; exact each_self _, ok_bind, List.length_replicate,
    foldlM_const _ _ _ fun i hi => ?_, ok_bind, mapM_const (y := (rows.map fun j => (j, R), rows.map fun j => (j, R))) fun q hq => ?_, ok_bind, List.length_replicate]
  · cases check with
    | false => rfl
    | true =>
      simp only [if_true, each_self, ok_bind]
      rw [mapM_const (y := rows.map fun j => (j, R)) fun q hq => by rw [(List.mem_replicate.1 hq).2]; exact each_self _]
      rfl
  · rw [(List.mem_replicate.1 hq).2]
    unfold penaltyB
    simp only [each_right hr, ok_bind, List.length_map]
    rw [List.take_of_length_le (by simp), List.take_of_length_le (by simp), each_right hr, ok_bind, each_self]
    rfl
  · have hi' : i < rows.length := by simpa using hi
    obtain ⟨t, ht, h⟩ := fold_addTo (f := fun l : List Sh => item l i) (s := (rows[i], r)) (List.replicate p (rows.map fun j => (j, r))) (by
      intro l hl
      rw [(List.mem_replicate.1 hl).2, item_ok, List.getElem?_map, List.getElem?_eq_getElem hi']
      rfl)
    have e : entryB (rows.map fun j => ((j, R), (R, R))) (List.replicate p (rows.map fun j => (j, r))) i = .ok (rows[i], R) := by
      unfold entryB
      rw [show item (rows.map fun j => (((j, R), (R, R)) : Sh × Sh)) i = .ok ((rows[i], R), (R, R)) by rw [item_ok, List.getElem?_map, List.getElem?_eq_getElem hi']; rfl, ok_bind, h,
        ok_bind, plus_one hr ht]
      simp [svd]
    rw [e, ok_bind, setItem, if_pos (by simpa using hi')]
    congr 1
    apply List.ext_getElem (by simp)
    intro m h1 h2
    rw [List.getElem_set]
    split
    · subst_vars; simp
    · rfl

theorem innerC_one (check : Bool) (p : ℕ) : innerC check ((k, R), (R, R)) ((k, R), List.replicate p ((k, r), (k, r))) = .ok ((k, R), List.replicate p ((k, R), (k, R))) := by
  obtain ⟨t, ht, h⟩ := fold_addTo (f := fun q : Sh × Sh => both q.1 q.2) (s := (k, r)) (List.replicate p ((k, r), (k, r))) (by
    intro q hq
    rw [(List.mem_replicate.1 hq).2, both_self])
  unfold innerC
  rw [h, ok_bind, plus_one hr ht]
  simp only [svd, ok_bind, min_self, dot_fit]
  rw [mapM_const (y := ((k, R), (k, R))) fun q hq => by rw [(List.mem_replicate.1 hq).2]; simp [penaltyC, both_right hr], ok_bind, List.length_replicate]
  cases check with
  | false => rfl
  | true =>
    simp only [if_true, both_self, ok_bind]
    rw [mapM_const (y := (k, R)) fun q hq => by rw [(List.mem_replicate.1 hq).2, both_self]]
    rfl

theorem innerA_one (const check : Bool) (p : ℕ) (hc : const = true ∨ p = 0) : innerA const check (rows.map fun j => (j, k)) (rows.map fun _ => (R, (R, R))) R
    ((rows.length, R), List.replicate p ((rows.length, r), (rows.length, r))) = .ok ((rows.length, R), List.replicate p ((rows.length, R), (rows.length, R))) := by
  unfold innerA
  rw [mapM_const (y := (rows.length, r)) fun q hq => by rw [(List.mem_replicate.1 hq).2, both_self], ok_bind, List.length_replicate,
    foldlM_const _ _ _ fun i hi => ?_, ok_bind, mapM_const (y := ((rows.length, R), (rows.length, R))) fun q hq => ?_, ok_bind, List.length_replicate]
  · cases check with
    | false => rfl
    | true =>
      simp only [if_true, both_self, ok_bind]
      rw [mapM_const (y := (rows.length, R)) fun q hq => by rw [(List.mem_replicate.1 hq).2, both_self]]
      rfl
  · obtain ⟨hp, rfl⟩ := List.mem_replicate.1 hq
    obtain rfl : const = true := by tauto
    simp [penaltyA, both_right hr]
  · have hi' : i < rows.length := by simpa using hi
    obtain ⟨t, ht, h⟩ := fold_addTo (f := fun s : Sh => (item (rowsOf s) i).bind fun x => .ok (1, x)) (s := (1, r)) (List.replicate p (rows.length, r)) (by
      intro l hl
      rw [(List.mem_replicate.1 hl).2, item_rowsOf (s := (rows.length, r)) hi']
      rfl)
    have h' : (List.replicate p ((rows.length, r) : Sh)).foldlM (fun t s => do addTo t (1, ← item (rowsOf s) i)) none = .ok t := by
      rw [← h]
      congr 1
      funext t s
      cases item (rowsOf s) i <;> rfl
    have e : entryA (rows.map fun _ => (R, (R, R))) R (List.replicate p (rows.length, r)) i = .ok R := by
      unfold entryA
      rw [show item (rows.map fun _ => ((R, (R, R)) : ℕ × Sh)) i = .ok (R, (R, R)) by rw [item_ok, List.getElem?_map, List.getElem?_eq_getElem hi']; rfl, ok_bind, both_self, ok_bind, h',
        ok_bind, plus_one hr ht]
      simp [svd]
    rw [e, ok_bind, setRow, if_pos hi', if_pos (.inl rfl)]

end

theorem times_one {σ : Type} {f : σ → Except PyErr σ} {s t : σ} (h : f s = .ok t) (h' : f t = .ok t) : ∀ n, times f n s = .ok (if n = 0 then s else t)
  | 0 => rfl
  | n + 1 => by rw [times, h, ok_bind, times_const h' n, if_neg (Nat.succ_ne_zero n)]

variable {pA pB pC rA rB rC : ℕ}

theorem sweep_one (hne : rows ≠ []) (o : Opts) (hA : rA = 1 ∨ rA = R) (hB : rB = 1 ∨ rB = R) (hC : rC = 1 ∨ rC = R) (hc : o.updA = true → o.constA = true ∨ pA = 0) :
    ∃ rA' rB' rC', (rA' = 1 ∨ rA' = R) ∧ (rB' = 1 ∨ rB' = R) ∧ (rC' = 1 ∨ rC' = R) ∧
      sweep o (rows.map fun j => (j, k)) (facOf rows k R, varsMix rows k rA rB rC pA pB pC) = .ok (facOf rows k R, varsMix rows k rA' rB' rC' pA pB pC) := by
  have stepB : ∃ rB', (rB' = 1 ∨ rB' = R) ∧ (if o.updB then updateB o.constB o.check o.nB (rows.map fun j => (j, k)) (facOf rows k R, varsMix rows k rA rB rC pA pB pC)
      else pure (facOf rows k R, varsMix rows k rA rB rC pA pB pC)) = .ok (facOf rows k R, varsMix rows k rA rB' rC pA pB pC) := by
    by_cases hu : o.updB = true
    · refine ⟨if o.nB = 0 then rB else R, by split <;> simp [hB], ?_⟩
      rw [if_pos hu]
      unfold updateB
      rw [linB_fit, ok_bind, if_neg (by simp [hne])]
      simp only [varsMix, facOf, List.zip_replicate', pure_eq_ok]
      rw [times_one (innerB_one hB o.check pB) (innerB_fit o.check pB) o.nB]
      by_cases hn : o.nB = 0 <;> simp [hn]
    · exact ⟨rB, hB, by rw [if_neg hu]; rfl⟩
  obtain ⟨rB', hB', h1⟩ := stepB
  have stepC : ∃ rC', (rC' = 1 ∨ rC' = R) ∧ (if o.updC then updateC o.check o.nC (rows.map fun j => (j, k)) (facOf rows k R, varsMix rows k rA rB' rC pA pB pC)
      else pure (facOf rows k R, varsMix rows k rA rB' rC pA pB pC)) = .ok (facOf rows k R, varsMix rows k rA rB' rC' pA pB pC) := by
    by_cases hu : o.updC = true
    · refine ⟨if o.nC = 0 then rC else R, by split <;> simp [hC], ?_⟩
      rw [if_pos hu]
      unfold updateC
      rw [linC_fit hne, ok_bind]
      simp only [varsMix, facOf, List.zip_replicate', pure_eq_ok]
      rw [times_one (innerC_one hC o.check pC) (innerC_fit o.check pC) o.nC]
      by_cases hn : o.nC = 0 <;> simp [hn]
    · exact ⟨rC, hC, by rw [if_neg hu]; rfl⟩
  obtain ⟨rC', hC', h2⟩ := stepC
  have hg : ∀ {a b c : ℕ}, (a = 1 ∨ a = R) → (b = 1 ∨ b = R) → (c = 1 ∨ c = R) → gaps (facOf rows k R) (varsMix rows k a b c pA pB pC) = .ok () := by
    intro a b c ha hb hc
    unfold gaps varsMix facOf
    simp only
    rw [mapM_const (y := (rows.length, R)) fun q hq => by rw [(List.mem_replicate.1 hq).2, both_left ha], ok_bind,
      mapM_const (y := rows.map fun j => (j, R)) fun q hq => by rw [(List.mem_replicate.1 hq).2, each_left hb], ok_bind,
      mapM_const (y := (k, R)) fun q hq => by rw [(List.mem_replicate.1 hq).2, both_left hc]]
    rfl
  unfold sweep
  rw [h1, ok_bind, h2, ok_bind]
  by_cases hu : o.updA = true
  · have h3 : updateA o.constA o.check o.nA (rows.map fun j => (j, k)) (facOf rows k R, varsMix rows k rA rB' rC' pA pB pC) =
        .ok ((facOf rows k R, varsMix rows k (if o.nA = 0 then rA else R) rB' rC' pA pB pC), (rows.map fun _ => R, rows.map fun _ => (R, R))) := by
      unfold updateA
      rw [linA_fit, ok_bind, if_neg (by simp [hne])]
      simp only [varsMix, facOf, List.zip_replicate', pure_eq_ok]
      rw [mapM_const (y := (R, R)) fun q hq => by obtain ⟨j, -, rfl⟩ := List.mem_map.1 hq; exact both_self, ok_bind,
        times_one (innerA_one hA o.constA o.check pA (hc hu)) (innerA_fit o.constA o.check pA) o.nA]
      by_cases hn : o.nA = 0 <;> simp [hn]
    have hA' : (if o.nA = 0 then rA else R) = 1 ∨ (if o.nA = 0 then rA else R) = R := by split <;> simp [hA]
    refine ⟨if o.nA = 0 then rA else R, rB', rC', hA', hB', hC', ?_⟩
    rw [if_pos hu, h3]
    cases o.diag <;> cases o.errs <;> simp [hg hA' hB' hC', recError_mid, -List.map_const']
  · refine ⟨rA, rB', rC', hA, hB', hC', ?_⟩
    rw [if_neg hu]
    cases o.diag <;> cases o.errs <;> simp [hg hA hB' hC', recError_fit, -List.map_const']

/-- C111: a requested rank of 1 is accepted for factors of any rank, if A has no penalty or a constant feasibility penalty; the factors of the initial rank are returned. -/
theorem C111_one_accepted (o : Opts) {X : List Sh} (hX : FitsShape X rows k) (hne : X ≠ []) (hc : o.updA = true → o.constA = true ∨ pA = 0) (pB pC N : ℕ) :
    fit_cmf o X 1 pA pB pC N (facOf rows k R) = .ok (facOf rows k R) := by
  obtain rfl := hX
  have hne : rows ≠ [] := by simpa using hne
  have hv := startVars_prefix (k := k) hne (Y := []) (rank := 1) o pA pB pC
  rw [List.append_nil, List.map_map, List.length_map] at hv
  have hv : startVars (rows.map fun j => (j, k)) 1 o pA pB pC = .ok (varsMix rows k 1 1 1 (if o.updA then pA else 0) (if o.updB then pB else 0) (if o.updC then pC else 0)) := hv
  have key : ∀ (N : ℕ) (a b c : ℕ), (a = 1 ∨ a = R) → (b = 1 ∨ b = R) → (c = 1 ∨ c = R) → ∃ v,
      times (sweep o (rows.map fun j => (j, k))) N (facOf rows k R, varsMix rows k a b c (if o.updA then pA else 0) (if o.updB then pB else 0) (if o.updC then pC else 0)) = .ok (facOf rows k R, v) := by
    intro N
    induction N with
    | zero => exact fun a b c _ _ _ => ⟨_, rfl⟩
    | succ n ih =>
      intro a b c ha hb hc'
      obtain ⟨a', b', c', ha', hb', hc'', e⟩ := sweep_one (k := k) (pA := if o.updA then pA else 0) (pB := if o.updB then pB else 0) (pC := if o.updC then pC else 0) hne o ha hb hc'
        (by intro hu; rw [if_pos hu]; exact hc hu)
      rw [times, e, ok_bind]
      exact ih a' b' c' ha' hb' hc''
  obtain ⟨v, hv'⟩ := key N 1 1 1 (.inl rfl) (.inl rfl) (.inl rfl)
  have hg : gaps (facOf rows k R) (varsMix rows k 1 1 1 (if o.updA then pA else 0) (if o.updB then pB else 0) (if o.updC then pC else 0)) = .ok () := by
    unfold gaps varsMix facOf
    simp only
    rw [mapM_const (y := (rows.length, R)) fun q hq => by rw [(List.mem_replicate.1 hq).2, both_left (.inl rfl)], ok_bind,
      mapM_const (y := rows.map fun j => (j, R)) fun q hq => by rw [(List.mem_replicate.1 hq).2, each_left (.inl rfl)], ok_bind,
      mapM_const (y := (k, R)) fun q hq => by rw [(List.mem_replicate.1 hq).2, both_left (.inl rfl)]]
    rfl
  unfold fit_cmf
  rw [hv, ok_bind, recError_fit, ok_bind, hg, ok_bind, hv', ok_bind, validate_fit]
  rfl

/-- C111, exact: for data of the shapes of the initial factorization, at least one iteration and one inner iteration in every mode, a call returns exactly if the requested rank is that of the
initial factorization, or no updated mode has a penalty, or the requested rank is 1 and A is not updated, has no penalty or has a constant feasibility penalty. -/
theorem C111_rank_exact (o : Opts) (hA : o.nA ≠ 0) (hB : o.nB ≠ 0) (hC : o.nC ≠ 0) {X : List Sh} (hX : FitsShape X rows k) (hne : X ≠ []) {N : ℕ} (hN : N ≠ 0) (rank pA pB pC : ℕ) :
    (∃ F', fit_cmf o X rank pA pB pC N (facOf rows k R) = .ok F') ↔
      rank = R ∨ ((o.updA = true → pA = 0) ∧ (o.updB = true → pB = 0) ∧ (o.updC = true → pC = 0)) ∨ (rank = 1 ∧ (o.updA = true → o.constA = true ∨ pA = 0)) := by
  constructor
  · rintro ⟨F', h⟩
    by_cases hp : (o.updA = true → pA = 0) ∧ (o.updB = true → pB = 0) ∧ (o.updC = true → pC = 0)
    · exact .inr (.inl hp)
    · rcases C111_rank_one_partial h (by rintro rfl; obtain rfl := hX; exact hne rfl) hN (by tauto) with h | h
      · exact .inl h
      · exact .inr (.inr ⟨h.1, by tauto⟩)
  · rintro (rfl | h | ⟨rfl, h⟩)
    · exact ⟨_, C111_fits o hX hne pA pB pC N⟩
    · have e : startVars X rank o pA pB pC = startVars X rank o 0 0 0 := by
        have a : (if o.updA then pA else 0) = 0 := by split <;> tauto
        have b : (if o.updB then pB else 0) = 0 := by split <;> tauto
        have c : (if o.updC then pC else 0) = 0 := by split <;> tauto
        unfold startVars
        rw [a, b, c]
        simp
      refine ⟨facOf rows k R, ?_⟩
      rw [← C111_rank_ignored o hX hne rank N]
      unfold fit_cmf
      rw [e]
    · exact ⟨_, C111_one_accepted o hX hne h pB pC N⟩

/-- The three ways to be accepted, and rejections: factors of rank 1 for a requested rank of 2, and a requested rank of 1 with a penalty on A. -/
example : fit_cmf optsAll [(3, 4), (5, 4)] 2 0 1 0 2 (facOf [3, 5] 4 1) = .error .valueError ∧ fit_cmf optsAll [(3, 4), (5, 4)] 1 1 0 0 2 (facOf [3, 5] 4 2) = .error .valueError ∧
    fit_cmf { optsAll with constA := true } [(3, 4), (5, 4)] 1 1 1 1 2 (facOf [3, 5] 4 2) = .ok (facOf [3, 5] 4 2) := by
  refine ⟨?_, ?_, ?_⟩ <;> decide +kernel

end

end Verif.Props
