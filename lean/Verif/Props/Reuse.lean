import Verif.Model.Reuse
import Mathlib.Tactic.SplitIfs
import Mathlib.Tactic.Set
import Mathlib.Data.List.Induction
namespace P3.Reuse
open Attr

/-! ### What the values are does not matter -/

/-- Symbolic values: the name of a function applied to symbolic values. -/
inductive Term
  | fn (s : String)
  | ap (f x : Term)
  deriving DecidableEq

def node (f : String) (l : List Term) : Term := l.foldl .ap (.fn f)

/-- The meaning of symbolic values: a function of a list of arguments, accumulated. -/
def eval {V : Type} (val : String → List V → V) : Term → List V → V
  | .fn s, args => val s args
  | .ap f x, args => eval val f (eval val x [] :: args)

theorem eval_node {V : Type} (val : String → List V → V) (f : String) (l : List Term) :
    eval val (node f l) [] = val f (l.map fun t => eval val t []) := by
  have key : ∀ (l : List Term) (g : Term) (args : List V),
      eval val (l.foldl .ap g) args = eval val g ((l.map fun t => eval val t []) ++ args) := by
    intro l
    induction l with
    | nil => intro g args; rfl
    | cons x t ih =>
      intro g args
      rw [List.foldl_cons, ih]
      simp [eval]
  rw [node, key]
  simp [eval]

/-- The store of the values of a symbolic store. -/
def evalStore {V : Type} (val : String → List V → V) (s : Store Term) : Store V := fun a => (s a).map fun t => eval val t []

theorem evalStore_put {V : Type} (val : String → List V → V) (s : Store Term) (a : Attr) (v : Option Term) :
    evalStore val (s.put a v) = (evalStore val s).put a (v.map fun t => eval val t []) := by
  funext x
  unfold evalStore Store.put
  by_cases h : x = a <;> simp [h]

theorem mapM_evalStore {V : Type} (val : String → List V → V) (s : Store Term) (deps : List Attr) :
    deps.mapM (evalStore val s) = (deps.mapM s).map fun l => l.map fun t => eval val t [] := by
  induction deps with
  | nil => rfl
  | cons a t ih =>
    rw [List.mapM_cons, List.mapM_cons, ih]
    unfold evalStore
    cases s a with
    | none => rfl
    | some v => cases t.mapM s <;> rfl

/-- A run on values is the symbolic run, evaluated. -/
theorem run_eval {V : Type} (val : String → List V → V) : ∀ (ops : List Op) (s : Store Term),
    run val ops (evalStore val s) = (run node ops s).map (evalStore val) := by
  intro ops
  induction ops with
  | nil => intro s; rfl
  | cons o t ih =>
    intro s
    cases o with
    | free a =>
      have := ih (s.put a none)
      rw [evalStore_put] at this
      simpa [run] using this
    | set fn a deps =>
      unfold run
      rw [mapM_evalStore]
      cases h : deps.mapM s with
      | none => rfl
      | some vs =>
        have := ih (s.put a (some (node fn vs)))
        rw [evalStore_put, Option.map_some, eval_node] at this
        simpa using this

theorem built_eval {V : Type} (val : String → List V → V) (c : Conf) :
    built val c = (built node c).map (evalStore val) := by
  unfold built
  rw [← run_eval]
  rfl

/-! ### Comparison of symbolic stores -/

def attrs : List Attr := [Cb, Cphi, CphiMod, M, Wtomo, Popt, W, PbetaDM, MPalphaL, Walpha, Recon, Loop, Noise, Alias, DiffRef,
  Chrom, ST, Cone, Mcao, Fit, Vib, Extra, ExtraLo, acc, PSD, Wfe, S, Ani, Bonus]

theorem mem_attrs (a : Attr) : a ∈ attrs := by cases a <;> decide

/-- The contents of a store, as a list. -/
def dump (s : Store Term) : List (Option Term) := attrs.map s

theorem dump_inj {s t : Store Term} (h : dump s = dump t) : s = t := by
  funext a
  exact List.map_inj_left.1 h a (mem_attrs a)

def dumpO (o : Option (Store Term)) : Option (List (Option Term)) := o.map dump

theorem dumpO_inj {s t : Option (Store Term)} (h : dumpO s = dumpO t) : s = t := by
  cases s <;> cases t <;> simp [dumpO] at h ⊢
  exact dump_inj h

def seenO (o : Option (Store Term)) : Option (Option Term × Option Term × Option Term) := o.map seen

theorem all_confs (P : Conf → Prop) (h : ∀ a b d e f g r i : Bool, P ⟨a, b, d, e, f, g, r, i⟩) (c : Conf) : P c := by
  obtain ⟨a, b, d, e, f, g, r, i⟩ := c
  exact h a b d e f g r i

theorem reduce_sym : ∀ a b d e f g i : Bool,
    seenO (built node ⟨a, b, d, e, f, g, true, i⟩) = seenO (built node ⟨a, b, d, e, f, g, false, i⟩) := by
  decide +kernel

/-- C365: the spectrum and the breakdown of the object just built do not depend on the reduction of memory (and an error is
raised with and without it, or neither). -/
theorem reduce_same {V : Type} (val : String → List V → V) (c : Conf) :
    (built val { c with reduce := true }).map seen = (built val { c with reduce := false }).map seen := by
  have h := reduce_sym c.tomo c.laser c.mcao c.vib c.extra c.lo c.ebd
  have key : ∀ o : Option (Store Term), (o.map (evalStore val)).map seen = (seenO o).map fun x =>
      (x.1.map fun t => eval val t [], x.2.1.map fun t => eval val t [], x.2.2.map fun t => eval val t []) := by
    intro o; cases o <;> rfl
  rw [built_eval val { c with reduce := true }, built_eval val { c with reduce := false }, key, key]
  exact congrArg _ h

/-- An object can be built when the cone effect of the constellation is asked for with several lasers, or no breakdown. -/
theorem built_some {V : Type} (val : String → List V → V) (c : Conf)
    (h : c.mcao = true → c.ebd = true → c.tomo = true ∧ c.laser = true) :
    ∃ s v, built val c = some s ∧ s PSD = some v ∧ ((s Wfe).isSome = c.ebd) ∧ ((s Bonus).isSome = c.ebd) := by
  have key : ∀ a b d e f g r i : Bool, (d = true → i = true → a = true ∧ b = true) →
      (seenO (built node ⟨a, b, d, e, f, g, r, i⟩)).map (fun x => (x.1.isSome, x.2.1.isSome, x.2.2.isSome)) =
        some (true, i, i) := by decide +kernel
  have k := key c.tomo c.laser c.mcao c.vib c.extra c.lo c.reduce c.ebd h
  rw [built_eval]
  cases hb : built node c with
  | none => rw [show (⟨c.tomo, c.laser, c.mcao, c.vib, c.extra, c.lo, c.reduce, c.ebd⟩ : Conf) = c from rfl, hb] at k
            simp [seenO] at k
  | some s =>
    rw [show (⟨c.tomo, c.laser, c.mcao, c.vib, c.extra, c.lo, c.reduce, c.ebd⟩ : Conf) = c from rfl, hb] at k
    simp only [seenO, seen, Option.map_some, Option.some.injEq, Prod.mk.injEq] at k
    obtain ⟨k1, k2, k3⟩ := k
    obtain ⟨v, hv⟩ := Option.isSome_iff_exists.1 k1
    exact ⟨_, eval val v [], rfl, by simp [evalStore, hv], by simp [evalStore, k2], by simp [evalStore, k3]⟩

/-! ### Histories of calls -/

def stepO (c : Conf) (o : Option (Store Term)) (k : Call) : Option (Store Term) := o.bind (run node (callProg c k))

theorem foldl_eval {V : Type} (val : String → List V → V) (c : Conf) (calls : List Call) (o : Option (Store Term)) :
    calls.foldl (fun o k => o.bind (run val (callProg c k))) (o.map (evalStore val)) =
      (calls.foldl (stepO c) o).map (evalStore val) := by
  induction calls generalizing o with
  | nil => rfl
  | cons k t ih =>
    rw [List.foldl_cons, List.foldl_cons, ← ih]
    congr 1
    cases o with
    | none => rfl
    | some s => simp [stepO, run_eval]

theorem after_eval {V : Type} (val : String → List V → V) (c : Conf) (calls : List Call) :
    after val c calls = (calls.foldl (stepO c) (built node c)).map (evalStore val) := by
  unfold after
  rw [built_eval, ← foldl_eval]
  cases built node c with
  | none =>
    simp only [Option.map_none, Option.bind_none]
    induction calls with
    | nil => rfl
    | cons k t ih => simpa using ih
  | some s => rfl

theorem foldl_none (c : Conf) (calls : List Call) : calls.foldl (stepO c) none = none := by
  induction calls with
  | nil => rfl
  | cons k t ih => simpa [stepO] using ih

/-- The symbolic object after the build (and a breakdown). -/
def b0 (c : Conf) := built node c
def b1 (c : Conf) := stepO c (b0 c) .breakdown

theorem keep_sym : ∀ a b d e f g i : Bool, (d = true → a = true ∧ b = true) →
    let c : Conf := ⟨a, b, d, e, f, g, false, i⟩
    dumpO (stepO c (b0 c) .psd) = dumpO (b0 c) ∧ dumpO (stepO c (b1 c) .psd) = dumpO (b1 c) ∧
    dumpO (stepO c (b1 c) .breakdown) = dumpO (b1 c) ∧ (dumpO (b1 c)).isSome ∧
    (seenO (b1 c)).map (fun x => (x.1, x.2.1.isSome, x.2.2.isSome)) = (seenO (b0 c)).map (fun x => (x.1, true, true)) ∧
    (i = true → dumpO (b1 c) = dumpO (b0 c)) := by
  decide +kernel

theorem foldl_fix (c : Conf) (o : Option (Store Term)) (h : ∀ k, stepO c o k = o) (calls : List Call) :
    calls.foldl (stepO c) o = o := by
  induction calls with
  | nil => rfl
  | cons k t ih => rw [List.foldl_cons, h, ih]

/-- C366: when the memory is not reduced, the spectrum and the breakdown can be computed again in any order and as many
times as wanted: nothing is raised and the numbers are the same. -/
theorem unreduced_history {V : Type} (val : String → List V → V) (c : Conf) (hr : c.reduce = false)
    (hm : c.mcao = true → c.tomo = true ∧ c.laser = true) :
    ∃ p w x : V, ∀ calls, ∃ s, after val c calls = some s ∧
      seen s = if c.ebd = true ∨ Call.breakdown ∈ calls then (some p, some w, some x) else (some p, none, none) := by
  obtain ⟨k1, k2, k3, k4, k5, k6⟩ := keep_sym c.tomo c.laser c.mcao c.vib c.extra c.lo c.ebd hm
  rw [show (⟨c.tomo, c.laser, c.mcao, c.vib, c.extra, c.lo, false, c.ebd⟩ : Conf) = c by rw [← hr]] at k1 k2 k3 k4 k5 k6
  have k1 := dumpO_inj k1
  have k2 := dumpO_inj k2
  have k3 := dumpO_inj k3
  obtain ⟨t0, v0, hb, hv0, w0, x0⟩ := built_some node c fun h _ => hm h
  obtain ⟨t1, hb1⟩ : ∃ t1, b1 c = some t1 := by
    cases h : b1 c with
    | none => rw [h] at k4; simp [dumpO] at k4
    | some t => exact ⟨t, rfl⟩
  have hb0 : b0 c = some t0 := hb
  have k5' := k5
  rw [hb1, hb0] at k5'
  simp only [seenO, seen, Option.map_some, Option.some.injEq, Prod.mk.injEq] at k5'
  obtain ⟨e1, e2, e3⟩ := k5'
  obtain ⟨w, hw⟩ := Option.isSome_iff_exists.1 e2
  obtain ⟨x, hx⟩ := Option.isSome_iff_exists.1 e3
  refine ⟨eval val v0 [], eval val w [], eval val x [], fun calls => ?_⟩
  rw [after_eval]
  have fix1 : ∀ calls : List Call, calls.foldl (stepO c) (b1 c) = b1 c := foldl_fix c (b1 c) fun k => by cases k; exact k2; exact k3
  have seen1 : seen (evalStore val t1) = (some (eval val v0 []), some (eval val w []), some (eval val x [])) := by
    simp [seen, evalStore, e1, hv0, hw, hx]
  have main : ∀ calls : List Call, (calls.foldl (stepO c) (b0 c)) = if c.ebd = true ∨ Call.breakdown ∈ calls then b1 c else b0 c := by
    intro calls
    by_cases he : c.ebd = true
    · have e : b1 c = b0 c := dumpO_inj (k6 he)
      rw [if_pos (Or.inl he), ← e, fix1]
    · induction calls with
      | nil => simp [he]
      | cons k t ih =>
        cases k with
        | psd =>
          rw [List.foldl_cons, k1, ih]
          simp
        | breakdown =>
          rw [List.foldl_cons, show stepO c (b0 c) .breakdown = b1 c from rfl, fix1]
          simp
  rw [show built node c = b0 c from rfl, main]
  by_cases hc : c.ebd = true ∨ Call.breakdown ∈ calls
  · rw [if_pos hc, if_pos hc, hb1]
    exact ⟨_, rfl, seen1⟩
  · rw [if_neg hc, if_neg hc, hb0]
    refine ⟨_, rfl, ?_⟩
    have he : c.ebd = false := by cases h : c.ebd; rfl; exact absurd (Or.inl h) hc
    rw [he] at w0 x0
    have n1 : t0 Wfe = none := by simpa using w0
    have n2 : t0 Bonus = none := by simpa using x0
    simp [seen, evalStore, hv0, n1, n2]

theorem freed_sym : ∀ a b d e f g i : Bool, (d = true → a = true ∧ b = true) →
    let c : Conf := ⟨a, b, d, e, f, g, true, i⟩
    (dumpO (b0 c)).isSome ∧ (a = true → dumpO (stepO c (b0 c) .psd) = none) ∧ dumpO (b1 c) = none ∧
    (a = false → i = false → dumpO (stepO c (b0 c) .psd) = dumpO (b0 c)) := by
  decide +kernel

theorem freed_sym2 : ∀ b d e f g : Bool, (d = true → false = true ∧ b = true) →
    let c : Conf := ⟨false, b, d, e, f, g, true, true⟩
    dumpO (stepO c (stepO c (b0 c) .psd) .psd) = dumpO (stepO c (b0 c) .psd) ∧
      dumpO (stepO c (stepO c (b0 c) .psd) .breakdown) = dumpO (b0 c) ∧
      seenO (stepO c (b0 c) .psd) = seenO (b0 c) := by
  decide +kernel

/-- The calls that can be made when the memory is reduced: none with several guide stars; otherwise the spectrum as many
times as wanted, and the breakdown only if it was asked for at the beginning and the spectrum was computed just before. -/
def Allowed (c : Conf) (calls : List Call) : Prop :=
  if c.tomo then calls = []
  else ∀ l r, calls = l ++ Call.breakdown :: r → c.ebd = true ∧ l.getLast? = some Call.psd

/-- C367 (partial): when the memory is reduced, the histories of calls that raise nothing, and those give the same numbers.
-/
theorem reduced_history_partial {V : Type} (val : String → List V → V) (c : Conf) (hr : c.reduce = true)
    (hm : c.mcao = true → c.tomo = true ∧ c.laser = true) (calls : List Call) :
    ((after val c calls).isSome = true ↔ Allowed c calls) ∧
    (Allowed c calls → (after val c calls).map seen = (built val c).map seen) := by
  obtain ⟨f1, f2, f3, f4⟩ := freed_sym c.tomo c.laser c.mcao c.vib c.extra c.lo c.ebd hm
  rw [show (⟨c.tomo, c.laser, c.mcao, c.vib, c.extra, c.lo, true, c.ebd⟩ : Conf) = c by rw [← hr]] at f1 f2 f3 f4
  have some0 : (b0 c).isSome = true := by cases h : b0 c with
    | none => rw [h] at f1; simp [dumpO] at f1
    | some t => rfl
  have none1 : stepO c (b0 c) .breakdown = none := dumpO_inj (t := none) f3
  rw [after_eval, built_eval val c]
  have lift : ∀ o : Option (Store Term), (o.map (evalStore val)).isSome = o.isSome := by intro o; cases o <;> rfl
  rw [lift, show built node c = b0 c from rfl]
  have key : ∀ o o' : Option (Store Term), seenO o = seenO o' →
      (o.map (evalStore val)).map seen = (o'.map (evalStore val)).map seen := by
    intro o o' h
    have : ∀ o : Option (Store Term), (o.map (evalStore val)).map seen = (seenO o).map fun x =>
        (x.1.map fun t => eval val t [], x.2.1.map fun t => eval val t [], x.2.2.map fun t => eval val t []) := by
      intro o; cases o <;> rfl
    rw [this, this, h]
  cases ht : c.tomo with
  | true =>
    have n0 : stepO c (b0 c) .psd = none := dumpO_inj (t := none) (f2 ht)
    unfold Allowed
    rw [ht, if_pos rfl]
    cases calls with
    | nil => exact ⟨by simp [some0], fun _ => rfl⟩
    | cons k t =>
      have : stepO c (b0 c) k = none := by cases k; exact n0; exact none1
      rw [List.foldl_cons, this, foldl_none]
      simp
  | false =>
    have allow : Allowed c calls ↔ ∀ l r, calls = l ++ Call.breakdown :: r → c.ebd = true ∧ l.getLast? = some Call.psd := by
      unfold Allowed; rw [ht]; simp
    rw [allow]
    cases he : c.ebd with
    | false =>
      have e0 : stepO c (b0 c) .psd = b0 c := dumpO_inj (f4 ht he)
      have main : ∀ calls : List Call, (Call.breakdown ∈ calls → calls.foldl (stepO c) (b0 c) = none) ∧
          (Call.breakdown ∉ calls → calls.foldl (stepO c) (b0 c) = b0 c) := by
        intro calls
        induction calls with
        | nil => simp
        | cons k t ih =>
          rw [List.foldl_cons]
          cases k with
          | psd => rw [e0]; simpa using ih
          | breakdown => rw [none1, foldl_none]; simp
      by_cases hb : Call.breakdown ∈ calls
      · rw [(main calls).1 hb]
        obtain ⟨l, r, e⟩ := List.append_of_mem hb
        have : ¬ ∀ l r, calls = l ++ Call.breakdown :: r → false = true ∧ l.getLast? = some Call.psd := by
          intro h; exact absurd (h l r e).1 (by simp)
        exact ⟨⟨fun h => by simp at h, fun h => absurd h this⟩, fun h => absurd h this⟩
      · rw [(main calls).2 hb]
        refine ⟨⟨fun _ l r e => absurd (by rw [e]; simp) hb, fun _ => some0⟩, fun _ => rfl⟩
    | true =>
      obtain ⟨g1, g2, g3⟩ := freed_sym2 c.laser c.mcao c.vib c.extra c.lo fun h => by rw [ht] at hm; exact hm h
      rw [show (⟨false, c.laser, c.mcao, c.vib, c.extra, c.lo, true, true⟩ : Conf) = c by
        obtain ⟨q1, q2, q3, q4, q5, q6, q7, q8⟩ := c; simp only at hr ht he; subst hr ht he; rfl] at g1 g2 g3
      have g1 := dumpO_inj g1
      have g2 := dumpO_inj g2
      set P := stepO c (b0 c) .psd with hP
      have pne : P.isSome = true := by
        cases h : P with
        | none => rw [h] at g3
                  cases h0 : b0 c with
                  | none => rw [h0] at some0; simp at some0
                  | some t => rw [h0] at g3; simp [seenO] at g3
        | some t => rfl
      -- the state after a list of calls, read from its end
      have main : ∀ calls : List Call,
          ((calls.foldl (stepO c) (b0 c)).isSome = true ↔
            ∀ l r, calls = l ++ Call.breakdown :: r → l.getLast? = some Call.psd) ∧
          ((calls.foldl (stepO c) (b0 c)).isSome = true →
            calls.foldl (stepO c) (b0 c) = if calls.getLast? = some Call.psd then P else b0 c) := by
        intro calls
        induction calls using List.reverseRecOn with
        | nil => simp [some0]
        | append_singleton t k ih =>
          obtain ⟨i1, i2⟩ := ih
          rw [List.foldl_append, List.foldl_cons, List.foldl_nil, List.getLast?_append]
          simp only [List.getLast?_singleton, Option.some_or]
          by_cases hs : (t.foldl (stepO c) (b0 c)).isSome = true
          · have hst := i2 hs
            have hall := i1.1 hs
            cases k with
            | psd =>
              have e : stepO c (t.foldl (stepO c) (b0 c)) .psd = P := by
                rw [hst]; split_ifs
                · exact g1
                · rfl
              rw [e]
              refine ⟨⟨fun _ l r h => ?_, fun _ => pne⟩, fun _ => by simp⟩
              rcases List.eq_nil_or_concat r with rfl | ⟨r', y, rfl⟩
              · have := congrArg List.getLast? h; simp at this
              · rw [List.concat_eq_append, ← List.cons_append, ← List.append_assoc] at h
                exact hall l r' (List.append_inj_left' h rfl)
            | breakdown =>
              by_cases hl : t.getLast? = some Call.psd
              · have e : stepO c (t.foldl (stepO c) (b0 c)) .breakdown = b0 c := by rw [hst, if_pos hl]; exact g2
                rw [e]
                refine ⟨⟨fun _ l r h => ?_, fun _ => some0⟩, fun _ => by simp⟩
                rcases List.eq_nil_or_concat r with rfl | ⟨r', y, rfl⟩
                · have := List.append_inj_left' h rfl
                  rw [← this]; exact hl
                · rw [List.concat_eq_append, ← List.cons_append, ← List.append_assoc] at h
                  exact hall l r' (List.append_inj_left' h rfl)
              · have e : stepO c (t.foldl (stepO c) (b0 c)) .breakdown = none := by rw [hst, if_neg hl]; exact none1
                rw [e]
                refine ⟨⟨by simp, fun h => absurd (h t [] rfl) hl⟩, by simp⟩
          · have hn : t.foldl (stepO c) (b0 c) = none := by
              cases h : t.foldl (stepO c) (b0 c) with
              | none => rfl
              | some x => rw [h] at hs; simp at hs
            rw [hn]
            refine ⟨⟨by simp [stepO], fun h => ?_⟩, by simp [stepO]⟩
            exact absurd (i1.2 fun l r e => h l (r ++ [k]) (by rw [e]; simp)) hs
      obtain ⟨m1, m2⟩ := main calls
      have eq : (∀ l r, calls = l ++ Call.breakdown :: r → true = true ∧ l.getLast? = some Call.psd) ↔
          ∀ l r, calls = l ++ Call.breakdown :: r → l.getLast? = some Call.psd := by simp
      rw [eq, m1]
      refine ⟨Iff.rfl, fun h => key _ _ ?_⟩
      rw [m2 (m1.2 h)]
      split_ifs
      · exact g3
      · rfl

/-- C367 (violation): when the memory is reduced, asking for the breakdown later raises, and so does asking for it twice; with
several guide stars so does computing the spectrum again. -/
theorem reduced_violation {V : Type} (val : String → List V → V) (c : Conf) (hr : c.reduce = true)
    (hm : c.mcao = true → c.tomo = true ∧ c.laser = true) :
    (built val c).isSome = true ∧ after val c [.breakdown] = none ∧ (c.tomo = true → after val c [.psd] = none) := by
  have h := fun calls => (reduced_history_partial val c hr hm calls).1
  refine ⟨?_, ?_, fun ht => ?_⟩
  · obtain ⟨s, _, hs, _⟩ := built_some val c fun h _ => hm h
    rw [hs]; rfl
  · have := h [.breakdown]
    cases ha : after val c [.breakdown] with
    | none => rfl
    | some s =>
      rw [ha] at this
      have := this.1 rfl
      unfold Allowed at this
      split_ifs at this
      have := (this [] [] rfl).2
      simp at this
  · have := h [.psd]
    cases ha : after val c [.psd] with
    | none => rfl
    | some s =>
      rw [ha] at this
      have := this.1 rfl
      unfold Allowed at this
      rw [if_pos ht] at this
      simp at this

/-! ### Non-vacuity -/

/-- Several lasers, cone effect of the constellation, vibrations and breakdown, memory reduced. -/
def demo : Conf := ⟨true, true, true, true, true, true, true, true⟩

example : ∃ s v, built (fun f l => f.length + l.sum) demo = some s ∧ s PSD = some v ∧ (s Wfe).isSome = true ∧ (s Bonus).isSome = true :=
  built_some _ demo fun _ _ => ⟨rfl, rfl⟩

example : (after (fun f l => f.length + l.sum) { demo with tomo := false, laser := false, mcao := false }
    [.psd, .psd, .breakdown, .psd]).isSome = true := by
  rw [(reduced_history_partial _ _ rfl (by simp) _).1]
  unfold Allowed
  rw [if_neg (by simp)]
  intro l r h
  refine ⟨rfl, ?_⟩
  rcases l with _ | ⟨a, _ | ⟨b, _ | ⟨d, _ | ⟨e, l⟩⟩⟩⟩ <;> simp at h ⊢
  exact h.2.1.symm

end P3.Reuse
