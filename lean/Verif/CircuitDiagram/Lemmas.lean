/-
The walk over the schedule, without the stacks.
-/
import Verif.CircuitDiagram.Spec

set_option linter.unusedSimpArgs false
set_option linter.unusedVariables false

namespace Verif.CircuitDiagram

/-- What is drawn one after the other: an operation with those before it, or a use of control flow. -/
inductive Entry where
  | leaf (pre : List (Rat × Op)) (t : Rat) (o : Op)
  | use (u : Use)

mutual
/-- What is drawn for a node. -/
def entries : List (Rat × Op) → Rat → Node → List Entry
  | pre, t, .op o => [.leaf pre t o]
  | pre, t, .loop r b => entries pre t b ++ [.use ⟨pre, .loop r b, leaves t b⟩]
  | pre, t, .cond l buf b => entries pre t b ++ [.use ⟨pre, .cond l buf b, leaves t b⟩]
  | pre, t, .sched _ its => entriesItems pre t its
/-- What is drawn for schedulables. -/
def entriesItems : List (Rat × Op) → Rat → Items → List Entry
  | _, _, .nil => []
  | pre, t, .cons u n rest => entries pre (t + u) n ++ entriesItems (pre ++ leaves (t + u) n) t rest
end

/-- The largest time. -/
def runMax (pre : List (Rat × Op)) : Rat := (times pre).foldl max 0

/-- One operation. -/
def fbStep (m : Maps) (acc : List (Rat × Op) × List (String × Nat × Nat)) (x : Rat × Op) :
    List (Rat × Op) × List (String × Nat × Nat) :=
  (acc.1 ++ [x], match feedback m x.2 with
    | .ok (some (l, line)) => Dict.set acc.2 l (steps (times (acc.1 ++ [x])), line)
    | _ => acc.2)

/-- The measurements with labels. -/
def fbOf (m : Maps) (pre : List (Rat × Op)) : List (String × Nat × Nat) := (pre.foldl (fbStep m) ([], [])).2

theorem fbOf_fst (m : Maps) (pre : List (Rat × Op)) : ∀ acc, (pre.foldl (fbStep m) acc).1 = acc.1 ++ pre := by
  induction pre with
  | nil => simp
  | cons x pre ih => intro acc; rw [List.foldl_cons, ih]; simp [fbStep]

theorem fbOf_snoc (m : Maps) (pre : List (Rat × Op)) (x : Rat × Op) :
    fbOf m (pre ++ [x]) = (match feedback m x.2 with
      | .ok (some (l, line)) => Dict.set (fbOf m pre) l (steps (times (pre ++ [x])), line)
      | _ => fbOf m pre) := by
  rw [fbOf, List.foldl_append, List.foldl_cons, List.foldl_nil]
  simp only [fbStep, fbOf_fst, List.nil_append]
  rfl

theorem stepsFrom_snoc (t : Rat) : ∀ (l pre : List Rat),
    stepsFrom pre (l ++ [t]) = stepsFrom pre l + (if Later (pre ++ l) t then 1 else 0)
  | [], pre => by simp [stepsFrom]
  | a :: l, pre => by
    simp only [List.cons_append, stepsFrom, stepsFrom_snoc t l (pre ++ [a]), List.append_assoc, List.nil_append]
    omega

theorem steps_snoc (l : List Rat) (t : Rat) : steps (l ++ [t]) = steps l + (if Later l t then 1 else 0) := by
  simpa [steps] using stepsFrom_snoc t l []

theorem foldl_max_lt (t : Rat) : ∀ (l : List Rat) (a : Rat), l.foldl max a < t ↔ a < t ∧ ∀ u ∈ l, u < t
  | [], a => by simp
  | b :: l, a => by
    rw [List.foldl_cons, foldl_max_lt t l]
    simp only [max_lt_iff, List.mem_cons, forall_eq_or_imp]
    tauto

theorem runMax_lt (pre : List (Rat × Op)) (t : Rat) : runMax pre < t ↔ Later (times pre) t := by
  rw [runMax, foldl_max_lt, Later]

theorem times_snoc (pre : List (Rat × Op)) (t : Rat) (o : Op) : times (pre ++ [(t, o)]) = times pre ++ [t] := by
  simp [times]

theorem runMax_snoc (pre : List (Rat × Op)) (t : Rat) (o : Op) :
    runMax (pre ++ [(t, o)]) = if Later (times pre) t then t else runMax pre := by
  have hs : runMax (pre ++ [(t, o)]) = max (runMax pre) t := by
    rw [runMax, times_snoc, List.foldl_append]; rfl
  rw [hs]
  have := runMax_lt pre t
  by_cases h : Later (times pre) t
  · rw [if_pos h]; exact max_eq_right (le_of_lt (this.2 h))
  · rw [if_neg h]; exact max_eq_left (not_lt.1 (fun hc => h (this.1 hc)))

/-- What is drawn for an entry. -/
def glyphsOf (m : Maps) (res : List (String × Rat)) : Entry → Except Err (List Glyph)
  | .leaf pre t o =>
    match feedback m o with
    | .error e => .error e
    | .ok _ => drawOp m res (column (times pre) t) o
  | .use u =>
    match u.flow with
    | .loop r b => drawLoop m r b (steps (times u.before) + 1) (steps (times (u.before ++ u.inside)))
    | .cond l _ b =>
      match find (fbOf m (u.before ++ u.inside)) l with
      | .error e => .error e
      | .ok (mt, ml) => drawCond m mt ml b (steps (times u.before) + 1) (steps (times (u.before ++ u.inside)))
    | _ => .ok []

/-- All entries. -/
def allGlyphs (m : Maps) (res : List (String × Rat)) : List Entry → Except Err (List Glyph)
  | [] => .ok []
  | e :: rest =>
    match glyphsOf m res e with
    | .error err => .error err
    | .ok g =>
      match allGlyphs m res rest with
      | .error err => .error err
      | .ok h => .ok (g ++ h)

theorem allGlyphs_append (m : Maps) (res : List (String × Rat)) : ∀ (a b : List Entry),
    allGlyphs m res (a ++ b) = (match allGlyphs m res a with
      | .error e => .error e
      | .ok g => match allGlyphs m res b with
        | .error e => .error e
        | .ok h => .ok (g ++ h))
  | [], b => by
    simp only [List.nil_append, allGlyphs]
    cases allGlyphs m res b <;> rfl
  | e :: a, b => by
    simp only [List.cons_append, allGlyphs]
    cases glyphsOf m res e with
    | error err => rfl
    | ok g =>
      simp only
      rw [allGlyphs_append m res a b]
      cases allGlyphs m res a with
      | error err => rfl
      | ok h =>
        simp only
        cases allGlyphs m res b with
        | error err => rfl
        | ok k => simp

theorem run_append (m : Maps) (res : List (String × Rat)) : ∀ (a b : List Event) (s : St),
    run m res s (a ++ b) = (match run m res s a with
      | .error e => .error e
      | .ok s' => run m res s' b)
  | [], b, s => rfl
  | e :: a, b, s => by
    simp only [List.cons_append, run]
    cases step m res s e with
    | error err => rfl
    | ok s' => exact run_append m res a b s'

/-- The state after the operations `pre`. -/
def at_ (m : Maps) (pre : List (Rat × Op)) (loops : List (Nat × Nat × Node)) (conds : List (Nat × String × Node))
    (out : List Glyph) : St :=
  ⟨steps (times pre), runMax pre, loops, conds, fbOf m pre, out⟩

/-- The state after the operations `pre`, if there was no exception. -/
def after (m : Maps) (pre : List (Rat × Op)) (loops : List (Nat × Nat × Node)) (conds : List (Nat × String × Node))
    (out : List Glyph) : Except Err (List Glyph) → Except Err St
  | .error e => .error e
  | .ok g => .ok (at_ m pre loops conds (out ++ g))

theorem run_op (m : Maps) (res : List (String × Rat)) (pre : List (Rat × Op)) (t : Rat) (o : Op) (loops conds out) :
    run m res (at_ m pre loops conds out) [.op t o] =
      after m (pre ++ [(t, o)]) loops conds out (allGlyphs m res [.leaf pre t o]) := by
  simp only [run, step, stepOp, at_, allGlyphs, glyphsOf]
  have hst : steps (times (pre ++ [(t, o)])) = if Later (times pre) t then steps (times pre) + 1 else steps (times pre) := by
    rw [times_snoc, steps_snoc]
    by_cases h : Later (times pre) t
    · rw [if_pos h, if_pos h]
    · rw [if_neg h, if_neg h]; rfl
  have hfb := fbOf_snoc m pre (t, o)
  simp only at hfb
  cases hf : feedback m o with
  | error e => simp [after]
  | ok f =>
    rw [hf] at hfb
    simp only [runMax_lt, decide_eq_true_eq]
    have hcol : (if Later (times pre) t then (((if Later (times pre) t then steps (times pre) + 1 else steps (times pre)) : Nat) : Rat) else t) =
        column (times pre) t := by
      unfold column; split <;> simp
    rw [hcol]
    cases drawOp m res (column (times pre) t) o with
    | error e => simp [after]
    | ok g =>
      simp only [after, at_, List.append_nil, runMax_snoc, hst, hfb]
      cases f with
      | none => simp
      | some p => obtain ⟨l, line⟩ := p; simp

mutual
theorem run_walk (m : Maps) (res : List (String × Rat)) : ∀ (n : Node) (pre : List (Rat × Op)) (t : Rat) (loops conds out),
    Simple n → run m res (at_ m pre loops conds out) (walk t n) =
      after m (pre ++ leaves t n) loops conds out (allGlyphs m res (entries pre t n))
  | .op o, pre, t, loops, conds, out, h => by
    rw [walk, leaves, entries]; exact run_op m res pre t o loops conds out
  | .sched r its, pre, t, loops, conds, out, h => by
    rw [walk, leaves, entries]
    rw [Simple] at h
    exact run_items m res its pre t loops conds out h
  | .loop r b, pre, t, loops, conds, out, h => by
    rw [Simple] at h
    rw [walk, leaves, entries, run, step]
    simp only
    have hb : walkBody t b = walk t b := by
      cases b with
      | op o => rw [walk, walkBody]
      | sched r its => rw [walk, walkBody]
      | loop r b => exact absurd h.1 (by simp [NotFlow])
      | cond l buf b => exact absurd h.1 (by simp [NotFlow])
    rw [hb, run_append]
    have := run_walk m res b pre t ((steps (times pre) + 1, r, b) :: loops) conds out h.2
    simp only [at_] at this ⊢
    rw [this, allGlyphs_append]
    cases allGlyphs m res (entries pre t b) with
    | error e => rfl
    | ok g =>
      simp only [after, at_, run, step, allGlyphs, glyphsOf]
      cases drawLoop m r b (steps (times pre) + 1) (steps (times (pre ++ leaves t b))) with
      | error e => rfl
      | ok g' => simp
  | .cond l buf b, pre, t, loops, conds, out, h => by
    rw [Simple] at h
    rw [walk, leaves, entries, run, step]
    simp only
    have hb : walkBody t b = walk t b := by
      cases b with
      | op o => rw [walk, walkBody]
      | sched r its => rw [walk, walkBody]
      | loop r b => exact absurd h.1 (by simp [NotFlow])
      | cond l buf b => exact absurd h.1 (by simp [NotFlow])
    rw [hb, run_append]
    have := run_walk m res b pre t loops ((steps (times pre) + 1, l, b) :: conds) out h.2
    simp only [at_] at this ⊢
    rw [this, allGlyphs_append]
    cases allGlyphs m res (entries pre t b) with
    | error e => rfl
    | ok g =>
      simp only [after, at_, run, step, allGlyphs, glyphsOf]
      cases find (fbOf m (pre ++ leaves t b)) l with
      | error e => rfl
      | ok p =>
        obtain ⟨mt, ml⟩ := p
        simp only
        cases drawCond m mt ml b (steps (times pre) + 1) (steps (times (pre ++ leaves t b))) with
        | error e => rfl
        | ok g' => simp
theorem run_items (m : Maps) (res : List (String × Rat)) : ∀ (its : Items) (pre : List (Rat × Op)) (t : Rat)
    (loops conds out), SimpleItems its → run m res (at_ m pre loops conds out) (walkItems t its) =
      after m (pre ++ leavesItems t its) loops conds out (allGlyphs m res (entriesItems pre t its))
  | .nil, pre, t, loops, conds, out, h => by
    rw [walkItems, leavesItems, entriesItems]; simp [run, after, allGlyphs]
  | .cons u n rest, pre, t, loops, conds, out, h => by
    rw [SimpleItems] at h
    rw [walkItems, leavesItems, entriesItems, run_append, run_walk m res n pre (t + u) loops conds out h.1,
      allGlyphs_append]
    cases allGlyphs m res (entries pre (t + u) n) with
    | error e => rfl
    | ok g =>
      simp only [after]
      rw [run_items m res rest (pre ++ leaves (t + u) n) t loops conds (out ++ g) h.2]
      cases allGlyphs m res (entriesItems (pre ++ leaves (t + u) n) t rest) with
      | error e => rfl
      | ok g' => simp [after]
end

theorem diagram_eq (order : List String) (res : List (String × Rat)) (s : Node) (h : Simple s) :
    diagram order res s = (match allGlyphs (maps order s) res (entries [] 0 s) with
      | .error e => .error e
      | .ok g => .ok ⟨(maps order s).elems, g, -1, steps (times (leaves 0 s)) + 1⟩) := by
  have := run_walk (maps order s) res s [] 0 [] [] [] h
  have h0 : at_ (maps order s) [] [] [] [] = {} := rfl
  rw [h0] at this
  rw [diagram, this]
  cases allGlyphs (maps order s) res (entries [] 0 s) with
  | error e => rfl
  | ok g => simp [after, at_]

/-! ### The entries are the operations and the uses of control flow -/

mutual
theorem leaf_mem : ∀ (n : Node) (pre : List (Rat × Op)) (t : Rat) (p : List (Rat × Op)) (u : Rat) (o : Op),
    Entry.leaf p u o ∈ entries pre t n ↔ ∃ a b, leaves t n = a ++ (u, o) :: b ∧ p = pre ++ a
  | .op o', pre, t, p, u, o => by
    rw [entries, leaves]
    simp only [List.mem_singleton, Entry.leaf.injEq]
    constructor
    · rintro ⟨rfl, rfl, rfl⟩; exact ⟨[], [], by simp, by simp⟩
    · rintro ⟨a, b, hab, rfl⟩
      cases a with
      | nil => simp at hab; obtain ⟨⟨rfl, rfl⟩, -⟩ := hab; simp
      | cons x a => simp at hab
  | .loop r b, pre, t, p, u, o => by
    rw [entries, leaves]
    simpa using leaf_mem b pre t p u o
  | .cond l buf b, pre, t, p, u, o => by
    rw [entries, leaves]
    simpa using leaf_mem b pre t p u o
  | .sched r its, pre, t, p, u, o => by
    rw [entries, leaves]; exact leaf_mem_items its pre t p u o
theorem leaf_mem_items : ∀ (its : Items) (pre : List (Rat × Op)) (t : Rat) (p : List (Rat × Op)) (u : Rat) (o : Op),
    Entry.leaf p u o ∈ entriesItems pre t its ↔ ∃ a b, leavesItems t its = a ++ (u, o) :: b ∧ p = pre ++ a
  | .nil, pre, t, p, u, o => by
    rw [entriesItems, leavesItems]; simp
  | .cons v n rest, pre, t, p, u, o => by
    rw [entriesItems, leavesItems, List.mem_append, leaf_mem n, leaf_mem_items rest]
    constructor
    · rintro (⟨a, b, h, rfl⟩ | ⟨a, b, h, rfl⟩)
      · exact ⟨a, b ++ leavesItems t rest, by rw [h]; simp, rfl⟩
      · exact ⟨leaves (t + v) n ++ a, b, by rw [h]; simp, by simp⟩
    · rintro ⟨a, b, h, rfl⟩
      rcases List.append_eq_append_iff.1 h with ⟨c, hc, hd⟩ | ⟨c, hc, hd⟩
      · right; exact ⟨c, b, hd, by rw [hc]; simp⟩
      · cases c with
        | nil =>
          right
          simp only [List.append_nil, List.nil_append] at hc hd
          exact ⟨[], b, by rw [List.nil_append, ← hd], by rw [hc, List.append_nil]⟩
        | cons x c =>
          left
          simp only [List.cons_append, List.cons.injEq] at hd
          exact ⟨a, c, by rw [hc, hd.1], rfl⟩
end

mutual
theorem use_mem : ∀ (n : Node) (pre : List (Rat × Op)) (t : Rat) (u : Use),
    Entry.use u ∈ entries pre t n ↔ u ∈ flows pre t n
  | .op o', pre, t, u => by rw [entries, flows]; simp
  | .loop r b, pre, t, u => by
    rw [entries, flows, List.mem_append, use_mem b, List.mem_singleton, List.mem_cons, Entry.use.injEq]; tauto
  | .cond l buf b, pre, t, u => by
    rw [entries, flows, List.mem_append, use_mem b, List.mem_singleton, List.mem_cons, Entry.use.injEq]; tauto
  | .sched r its, pre, t, u => by rw [entries, flows]; exact use_mem_items its pre t u
theorem use_mem_items : ∀ (its : Items) (pre : List (Rat × Op)) (t : Rat) (u : Use),
    Entry.use u ∈ entriesItems pre t its ↔ u ∈ flowsItems pre t its
  | .nil, pre, t, u => by rw [entriesItems, flowsItems]; simp
  | .cons v n rest, pre, t, u => by
    rw [entriesItems, flowsItems, List.mem_append, List.mem_append, use_mem n, use_mem_items rest]
end

theorem allGlyphs_ok_iff (m : Maps) (res : List (String × Rat)) : ∀ (l : List Entry),
    (∃ g, allGlyphs m res l = .ok g) ↔ ∀ e ∈ l, ∃ g, glyphsOf m res e = .ok g
  | [] => by simp [allGlyphs]
  | e :: rest => by
    have ih := allGlyphs_ok_iff m res rest
    simp only [List.mem_cons, forall_eq_or_imp, ← ih, allGlyphs]
    cases glyphsOf m res e with
    | error err => simp
    | ok g =>
      cases allGlyphs m res rest with
      | error err => simp
      | ok h => simp

theorem mem_allGlyphs (m : Maps) (res : List (String × Rat)) : ∀ (l : List Entry) (g : List Glyph) (x : Glyph),
    allGlyphs m res l = .ok g → (x ∈ g ↔ ∃ e ∈ l, ∃ h, glyphsOf m res e = .ok h ∧ x ∈ h)
  | [], g, x, h => by simp [allGlyphs] at h; simp [h]
  | e :: rest, g, x, h => by
    rw [allGlyphs] at h
    cases hg : glyphsOf m res e with
    | error err => rw [hg] at h; simp at h
    | ok a =>
      rw [hg] at h
      simp only at h
      cases hr : allGlyphs m res rest with
      | error err => rw [hr] at h; simp at h
      | ok b =>
        rw [hr] at h
        simp only [Except.ok.injEq] at h
        have ih := mem_allGlyphs m res rest b x hr
        simp only [← h, List.mem_append, ih, List.mem_cons, exists_eq_or_imp, hg, Except.ok.injEq, exists_eq_left']

/-! ### The operations of the second walk -/

mutual
theorem onlyOps_eq : ∀ (n : Node) (t : Rat), Simple n → onlyOps n = (leaves t n).map Prod.snd
  | .op o, t, h => by rw [onlyOps, leaves]; rfl
  | .loop r b, t, h => by
    rw [Simple] at h
    rw [onlyOps, leaves]; exact bodyOps_eq b t h.1 h.2
  | .cond l buf b, t, h => by
    rw [Simple] at h
    rw [onlyOps, leaves]; exact bodyOps_eq b t h.1 h.2
  | .sched r its, t, h => by
    rw [Simple] at h
    rw [onlyOps, leaves]; exact itemsOps_eq its t h
theorem bodyOps_eq : ∀ (n : Node) (t : Rat), NotFlow n → Simple n → bodyOps n = (leaves t n).map Prod.snd
  | .op o, t, h, hs => by rw [bodyOps, leaves]; rfl
  | .loop r b, t, h, hs => absurd h (by simp [NotFlow])
  | .cond l buf b, t, h, hs => absurd h (by simp [NotFlow])
  | .sched r its, t, h, hs => by
    rw [Simple] at hs
    rw [bodyOps, leaves]; exact itemsOps_eq its t hs
theorem itemsOps_eq : ∀ (its : Items) (t : Rat), SimpleItems its → itemsOps its = (leavesItems t its).map Prod.snd
  | .nil, t, h => by rw [itemsOps, leavesItems]; rfl
  | .cons u n rest, t, h => by
    rw [SimpleItems] at h
    rw [itemsOps, leavesItems, List.map_append, onlyOps_eq n (t + u) h.1, itemsOps_eq rest t h.2]
end

end Verif.CircuitDiagram
