/-
Lemmas for `Digital/Props.lean`.
-/
import Verif.Digital.Spec

set_option linter.unusedSimpArgs false
set_option linter.unusedVariables false

namespace Verif.Digital

open Verif.Flatten (Forest leaves)
open Verif.Redundant (Op Kind Params Trace exec repeatFrom appliedAt ordered)
open Verif.StableSort (sortBy)

variable {R : Type}

/-! ### Units: a change of the level and its update, or another operation -/

inductive What (R : Type) where
  | mark (high : Bool)
  | rest (k : Rest R)

structure Unt (R : Type) where
  time : Int
  what : What R

/-- The units of an operation. -/
def units (o : DOp R) : List (Unt R) :=
  match o.act with
  | .pulse d => [⟨o.time, .mark true⟩, ⟨o.time + d, .mark false⟩]
  | .rest k => [⟨o.time, .rest k⟩]

def lev (l : Levels) (h : Bool) : Nat := if h then l.high else l.low

/-- The operations of a unit. -/
def blk (l : Levels) (u : Unt R) : List (Op (Nat × R)) :=
  match u.what with
  | .mark h => [⟨u.time, setLevel (lev l h)⟩, ⟨u.time, .upd⟩]
  | .rest k => [⟨u.time, k.kind⟩]

/-- The operation of a bracket. -/
def one (u : Unt R) : Op (Nat × R) :=
  match u.what with
  | .mark _ => ⟨u.time, .idle⟩
  | .rest k => ⟨u.time, k.kind⟩

theorem replace_units (l : Levels) (ops : List (DOp R)) : replace l ops = (ops.flatMap units).flatMap (blk l) := by
  unfold replace
  rw [List.flatMap_assoc]
  congr 1
  funext o
  unfold units
  cases h : o.act with
  | pulse d => simp [blk, lev]
  | rest k => simp [blk]

theorem ordered_replace (l : Levels) (ops : List (DOp R)) :
    ordered (replace l ops) = (sortBy Unt.time (ops.flatMap units)).flatMap (blk l) := by
  rw [replace_units, ordered, StableSort.sortBy_flatMap Unt.time Op.time]
  intro u _ o ho
  unfold blk at ho
  cases h : u.what <;> rw [h] at ho <;> simp at ho
  · rcases ho with rfl | rfl <;> rfl
  · subst ho; rfl

/-! ### Forests of units -/

def uctl (u : Unt R) : Bool :=
  match u.what with
  | .rest (.loop _ _) => true
  | .rest .cond => true
  | .rest .ret => true
  | _ => false

def skel (u : Unt R) : Bool :=
  match u.what with
  | .mark _ => true
  | .rest (.loop _ _) => true
  | .rest .cond => true
  | .rest .ret => true
  | _ => false

def UBr : Forest (Unt R) → Prop
  | .nil => True
  | .leaf u rest => uctl u = false ∧ UBr rest
  | .node b body e rest => ((∃ n p, b.what = .rest (.loop n p)) ∨ b.what = .rest .cond) ∧ e.what = .rest .ret ∧
      UBr body ∧ UBr rest

/-- The program of a forest of units. -/
def bindF (l : Levels) : Forest (Unt R) → Forest (Op (Nat × R))
  | .nil => .nil
  | .leaf u rest => leaves (blk l u) (bindF l rest)
  | .node b body e rest => .node (one b) (bindF l body) (one e) (bindF l rest)

theorem flatten_leaves {α : Type} (l : List α) (f : Forest α) : (leaves l f).flatten = l ++ f.flatten := by
  induction l with
  | nil => rfl
  | cons a l ih => simp [leaves, Forest.flatten, ih]

theorem blk_open (l : Levels) {b : Unt R} (h : (∃ n p, b.what = .rest (.loop n p)) ∨ b.what = .rest .cond) :
    blk l b = [one b] := by
  rcases h with ⟨n, p, h⟩ | h <;> simp [blk, one, h]

theorem blk_close (l : Levels) {b : Unt R} (h : b.what = .rest .ret) : blk l b = [one b] := by
  simp [blk, one, h]

theorem bindF_flatten (l : Levels) : ∀ f : Forest (Unt R), UBr f → (bindF l f).flatten = f.flatten.flatMap (blk l)
  | .nil, _ => rfl
  | .leaf u rest, h => by
    simp only [bindF, flatten_leaves, Forest.flatten, List.flatMap_cons, bindF_flatten l rest h.2]
  | .node b body e rest, h => by
    obtain ⟨h1, h2, h3, h4⟩ := h
    simp only [bindF, Forest.flatten, List.flatMap_cons, List.flatMap_append, blk_open l h1, blk_close l h2,
      bindF_flatten l body h3, bindF_flatten l rest h4]
    rfl

theorem bracketed_leaves {S : Type} {l : List (Op S)} {f : Forest (Op S)} (h : ∀ o ∈ l, o.isControl = false)
    (hf : Redundant.Bracketed f) : Redundant.Bracketed (leaves l f) := by
  induction l with
  | nil => exact hf
  | cons a l ih => exact ⟨h a (by simp), ih (fun o ho => h o (by simp [ho]))⟩

theorem bindF_bracketed (l : Levels) : ∀ f : Forest (Unt R), UBr f → Redundant.Bracketed (bindF l f)
  | .nil, _ => trivial
  | .leaf u rest, h => by
    refine bracketed_leaves ?_ (bindF_bracketed l rest h.2)
    have hu := h.1
    intro o ho
    unfold uctl at hu
    unfold blk at ho
    cases hw : u.what with
    | mark b =>
      rw [hw] at ho
      simp at ho
      rcases ho with rfl | rfl <;> rfl
    | rest k =>
      rw [hw] at ho hu
      simp at ho
      subst ho
      cases k <;> simp at hu <;> rfl
  | .node b body e rest, h => by
    obtain ⟨h1, h2, h3, h4⟩ := h
    refine ⟨?_, ?_, bindF_bracketed l body h3, bindF_bracketed l rest h4⟩
    · rcases h1 with ⟨n, p, h1⟩ | h1
      · exact Or.inl ⟨n, p, by simp [one, h1, Rest.kind]⟩
      · exact Or.inr (by simp [one, h1, Rest.kind])
    · simp [one, h2, Rest.kind]

/-! ### Executions of units -/

def execU (env : List Nat → Bool) : Forest (Unt R) → Int → List Nat → Nat → List (Int × Unt R)
  | .nil, _, _, _ => []
  | .leaf u rest, shift, path, k => (shift + u.time, u) :: execU env rest shift path k
  | .node b body e rest, shift, path, k =>
    (match b.what with
      | .rest (.loop reps period) => Spec.again (fun i =>
          (shift + i * period + b.time, b) :: (execU env body (shift + i * period) (path ++ [k, i]) 0
            ++ [(shift + i * period + e.time, e)])) 0 reps
      | _ => (shift + b.time, b) ::
          ((if env (path ++ [k]) then execU env body shift (path ++ [k]) 0 else []) ++
            [(shift + e.time, e)])) ++
    execU env rest shift path (k + 1)

def spread (l : Levels) (e : Int × Unt R) : Trace (Nat × R) := (blk l e.2).map (fun o => (e.1, o))

theorem repeat_again {S α : Type} (f : Nat → Trace S) (g : Nat → List α) (h : α → Trace S)
    (hf : ∀ i, f i = (g i).flatMap h) : ∀ (n i : Nat), repeatFrom f i n = (Spec.again g i n).flatMap h
  | 0, _ => rfl
  | n + 1, i => by
    simp only [repeatFrom, Spec.again, List.flatMap_append, hf i, repeat_again f g h hf n (i + 1)]

theorem exec_leaves {S : Type} (env : List Nat → Bool) (l : List (Op S)) (f : Forest (Op S)) (shift : Int)
    (path : List Nat) (k : Nat) :
    exec env (leaves l f) shift path k = l.map (fun o => (shift + o.time, o)) ++ exec env f shift path k := by
  induction l with
  | nil => rfl
  | cons a l ih => simp [leaves, exec, ih]

theorem blk_time (l : Levels) (u : Unt R) : ∀ o ∈ blk l u, o.time = u.time := by
  intro o ho
  unfold blk at ho
  cases h : u.what <;> rw [h] at ho <;> simp at ho
  · rcases ho with rfl | rfl <;> rfl
  · subst ho; rfl

theorem spread_eq (l : Levels) (shift : Int) (u : Unt R) :
    (blk l u).map (fun o => (shift + o.time, o)) = spread l (shift + u.time, u) := by
  unfold spread
  apply List.map_congr_left
  intro o ho
  rw [blk_time l u o ho]

theorem one_time (u : Unt R) : (one u).time = u.time := by
  unfold one
  cases u.what <;> rfl

theorem spread_one (l : Levels) {u : Unt R} (h : blk l u = [one u]) (t : Int) : spread l (t, u) = [(t, one u)] := by
  simp [spread, h]

theorem exec_bindF (l : Levels) (env : List Nat → Bool) : ∀ (f : Forest (Unt R)) (shift : Int) (path : List Nat)
    (k : Nat), UBr f → exec env (bindF l f) shift path k = (execU env f shift path k).flatMap (spread l)
  | .nil, _, _, _, _ => rfl
  | .leaf u rest, shift, path, k, h => by
    rw [bindF, exec_leaves, spread_eq, exec_bindF l env rest shift path k h.2, execU, List.flatMap_cons]
  | .node b body e rest, shift, path, k, h => by
    obtain ⟨h1, h2, h3, h4⟩ := h
    have hb := fun t => spread_one l (blk_open l h1) t
    have he := fun t => spread_one l (blk_close l h2) t
    rw [bindF, exec, execU, List.flatMap_append, exec_bindF l env rest shift path (k + 1) h4]
    congr 1
    rcases h1 with ⟨n, p, h1⟩ | h1
    · have hk : (one b).kind = .loop n p := by simp [one, h1, Rest.kind]
      simp only [hk, h1]
      apply repeat_again
      intro i
      simp only [List.flatMap_cons, List.flatMap_append, List.flatMap_nil, hb, he, one_time, List.append_nil,
        exec_bindF l env body _ _ 0 h3]
      rfl
    · have hk : (one b).kind = .cond := by simp [one, h1, Rest.kind]
      simp only [hk, h1, List.flatMap_cons, List.flatMap_append, List.flatMap_nil, hb, he, one_time, List.append_nil]
      by_cases hv : env (path ++ [k]) = true
      · simp only [hv, if_true, exec_bindF l env body _ _ 0 h3]
        rfl
      · simp only [hv]
        rfl

/-! ### The level -/

/-- The changes of an execution. -/
def markOf (e : Int × Unt R) : Option (Int × Bool) :=
  match e.2.what with
  | .mark h => some (e.1, h)
  | .rest _ => none

theorem rest_step_fst (k : Rest R) (t : Int) (p : Params (Nat × R)) (h : p.pending.1 = p.applied.1) :
    ((p.step ⟨t, k.kind⟩).pending.1 = p.applied.1) ∧ (p.step ⟨t, k.kind⟩).applied.1 = p.applied.1 := by
  cases k <;> simp [Rest.kind, Params.step, h]

theorem spread_level (l : Levels) (now : Int) : ∀ (es : List (Int × Unt R)) (p : Params (Nat × R)),
    p.pending.1 = p.applied.1 →
    (p.after ((es.flatMap (spread l)).filter (fun e => decide (e.1 ≤ now)))).applied.1 =
      ((es.filterMap markOf).filter (fun m => decide (m.1 ≤ now))).foldl (fun _ m => lev l m.2) p.applied.1
  | [], p, h => rfl
  | (t, u) :: es, p, h => by
    rw [List.flatMap_cons, List.filter_append]
    cases hw : u.what with
    | mark b =>
      have hm : markOf (t, u) = some (t, b) := by simp [markOf, hw]
      rw [List.filterMap_cons_some hm]
      by_cases ht : t ≤ now
      · have hs : (spread l (t, u)).filter (fun e => decide (e.1 ≤ now)) = spread l (t, u) := by
          simp [spread, blk, hw, ht]
        rw [hs, List.filter_cons_of_pos (by simpa using ht), List.foldl_cons]
        unfold Params.after
        rw [List.foldl_append]
        have := spread_level l now es (p.after (spread l (t, u))) (by
          simp [spread, blk, hw, Params.after, Params.step, setLevel])
        unfold Params.after at this
        rw [this]
        simp [spread, blk, hw, Params.after, Params.step, setLevel]
      · have hs : (spread l (t, u)).filter (fun e => decide (e.1 ≤ now)) = [] := by
          simp [spread, blk, hw, ht]
        rw [hs, List.filter_cons_of_neg (by simpa using ht), List.nil_append]
        exact spread_level l now es p h
    | rest k =>
      have hm : markOf (t, u) = none := by simp [markOf, hw]
      rw [List.filterMap_cons_none hm]
      by_cases ht : t ≤ now
      · have hs : (spread l (t, u)).filter (fun e => decide (e.1 ≤ now)) = [(t, ⟨u.time, k.kind⟩)] := by
          simp [spread, blk, hw, ht]
        rw [hs]
        obtain ⟨h1, h2⟩ := rest_step_fst k u.time p h
        have := spread_level l now es (p.step ⟨u.time, k.kind⟩) (by rw [h1, h2])
        rw [h2] at this
        exact this
      · have hs : (spread l (t, u)).filter (fun e => decide (e.1 ≤ now)) = [] := by
          simp [spread, blk, hw, ht]
        rw [hs, List.nil_append]
        exact spread_level l now es p h

/-! ### Outline of a forest of units -/

def keepF {α : Type} (q : α → Bool) : Forest α → Forest α
  | .nil => .nil
  | .leaf a rest => if q a then .leaf a (keepF q rest) else keepF q rest
  | .node b body e rest => .node b (keepF q body) e (keepF q rest)

theorem filter_split {α : Type} (q : α → Bool) : ∀ (l : List α) (a : α) (r : List α), l.filter q = a :: r →
    ∃ pre l', l = pre ++ a :: l' ∧ (∀ x ∈ pre, q x = false) ∧ l'.filter q = r ∧ q a = true
  | [], a, r, h => by simp at h
  | x :: l, a, r, h => by
    by_cases hx : q x = true
    · rw [List.filter_cons_of_pos hx] at h
      injection h with h1 h2
      subst h1
      exact ⟨[], l, rfl, by simp, h2, hx⟩
    · rw [List.filter_cons_of_neg hx] at h
      obtain ⟨pre, l', h1, h2, h3, h4⟩ := filter_split q l a r h
      refine ⟨x :: pre, l', by simp [h1], ?_, h3, h4⟩
      intro y hy
      rcases List.mem_cons.mp hy with rfl | hy
      · simpa using hx
      · exact h2 y hy

theorem keepF_leaves {α : Type} (q : α → Bool) : ∀ (l : List α) (f : Forest α), (∀ x ∈ l, q x = false) →
    keepF q (leaves l f) = keepF q f
  | [], _, _ => rfl
  | a :: l, f, h => by
    rw [leaves, keepF, if_neg (by simp [h a (by simp)]), keepF_leaves q l f (fun x hx => h x (by simp [hx]))]

theorem ubr_leaves {l : List (Unt R)} {f : Forest (Unt R)} (h : ∀ u ∈ l, skel u = false) (hf : UBr f) :
    UBr (leaves l f) := by
  induction l with
  | nil => exact hf
  | cons a l ih =>
    refine ⟨?_, ih (fun o ho => h o (by simp [ho]))⟩
    have := h a (by simp)
    unfold skel at this
    unfold uctl
    cases ha : a.what with
    | mark b => rfl
    | rest k => rw [ha] at this; cases k <;> simp_all

theorem rebuild : ∀ (E : Forest (Unt R)) (l r : List (Unt R)), UBr E → l.filter skel = E.flatten ++ r →
    ∃ G l', l = G.flatten ++ l' ∧ UBr G ∧ keepF skel G = E ∧ l'.filter skel = r
  | .nil, l, r, _, h => ⟨.nil, l, rfl, trivial, rfl, h⟩
  | .leaf a E, l, r, hE, h => by
    obtain ⟨pre, l1, h1, h2, h3, h4⟩ := filter_split skel l a (E.flatten ++ r) h
    obtain ⟨G, l', g1, g2, g3, g4⟩ := rebuild E l1 r hE.2 h3
    refine ⟨leaves pre (.leaf a G), l', ?_, ubr_leaves h2 ⟨hE.1, g2⟩, ?_, g4⟩
    · rw [flatten_leaves, h1, g1]; simp [Forest.flatten]
    · rw [keepF_leaves skel _ _ h2, keepF, if_pos h4, g3]
  | .node b B e E, l, r, hE, h => by
    obtain ⟨e1, e2, e3, e4⟩ := hE
    have h' : l.filter skel = b :: (B.flatten ++ (e :: (E.flatten ++ r))) := by
      rw [h]; simp [Forest.flatten]
    obtain ⟨pre, l1, h1, h2, h3, h4⟩ := filter_split skel l b _ h'
    obtain ⟨G1, l2, g1, g2, g3, g4⟩ := rebuild B l1 _ e3 h3
    obtain ⟨pre2, l3, k1, k2, k3, k4⟩ := filter_split skel l2 e _ g4
    obtain ⟨G2, l4, m1, m2, m3, m4⟩ := rebuild E l3 _ e4 k3
    have fl : ∀ (p : List (Unt R)) (F : Forest (Unt R)), UBr F → (∀ u ∈ p, skel u = false) →
        ∃ F', F'.flatten = F.flatten ++ p ∧ UBr F' ∧ keepF skel F' = keepF skel F := by
      intro p F
      induction F with
      | nil => exact fun _ hp => ⟨leaves p .nil, by simp [flatten_leaves, Forest.flatten], ubr_leaves hp trivial,
          keepF_leaves skel p .nil hp⟩
      | leaf a F ih =>
        intro hF hp
        obtain ⟨F', f1, f2, f3⟩ := ih hF.2 hp
        exact ⟨.leaf a F', by simp [Forest.flatten, f1], ⟨hF.1, f2⟩, by simp [keepF, f3]⟩
      | node b body e rest _ ih =>
        intro hF hp
        obtain ⟨F', f1, f2, f3⟩ := ih hF.2.2.2 hp
        exact ⟨.node b body e F', by simp [Forest.flatten, f1], ⟨hF.1, hF.2.1, hF.2.2.1, f2⟩, by simp [keepF, f3]⟩
    obtain ⟨G1', n1, n2, n3⟩ := fl pre2 G1 g2 k2
    refine ⟨leaves pre (.node b G1' e G2), l4, ?_, ubr_leaves h2 ⟨e1, e2, n2, m2⟩, ?_, m4⟩
    · rw [flatten_leaves, h1, g1, k1, m1]
      simp [Forest.flatten, n1]
    · rw [keepF_leaves skel _ _ h2, keepF, n3, g3, m3]

theorem rebuild_all (E : Forest (Unt R)) (l : List (Unt R)) (hE : UBr E) (h : l.filter skel = E.flatten) :
    ∃ G, l = G.flatten ∧ UBr G ∧ keepF skel G = E := by
  obtain ⟨G, l', g1, g2, g3, g4⟩ := rebuild E l [] hE (by simpa using h)
  have hl : ∀ u ∈ l', skel u = false := by
    intro u hu
    by_contra hc
    have : u ∈ l'.filter skel := List.mem_filter.mpr ⟨hu, by simpa using hc⟩
    rw [g4] at this
    simp at this
  have fl : ∀ (F : Forest (Unt R)), UBr F →
      ∃ F', F'.flatten = F.flatten ++ l' ∧ UBr F' ∧ keepF skel F' = keepF skel F := by
    intro F
    induction F with
    | nil => exact fun _ => ⟨leaves l' .nil, by simp [flatten_leaves, Forest.flatten], ubr_leaves hl trivial,
        keepF_leaves skel l' .nil hl⟩
    | leaf a F ih =>
      intro hF
      obtain ⟨F', f1, f2, f3⟩ := ih hF.2
      exact ⟨.leaf a F', by simp [Forest.flatten, f1], ⟨hF.1, f2⟩, by simp [keepF, f3]⟩
    | node b body e rest _ ih =>
      intro hF
      obtain ⟨F', f1, f2, f3⟩ := ih hF.2.2.2
      exact ⟨.node b body e F', by simp [Forest.flatten, f1], ⟨hF.1, hF.2.1, hF.2.2.1, f2⟩, by simp [keepF, f3]⟩
  obtain ⟨F', f1, f2, f3⟩ := fl G g2
  exact ⟨F', by rw [f1, ← g1], f2, f3.trans g3⟩

/-! ### Changes of an execution depend only on the outline -/

theorem again_filterMap {α β : Type} (f : Nat → List α) (g : Nat → List β) (m : α → Option β)
    (h : ∀ i, (f i).filterMap m = g i) : ∀ (n i : Nat), (Spec.again f i n).filterMap m = Spec.again g i n
  | 0, _ => rfl
  | n + 1, i => by simp only [Spec.again, List.filterMap_append, h i, again_filterMap f g m h n (i + 1)]

theorem markOf_ctl {u : Unt R} (h : (∃ n p, u.what = .rest (.loop n p)) ∨ u.what = .rest .cond ∨ u.what = .rest .ret)
    (t : Int) : markOf (t, u) = none := by
  rcases h with ⟨n, p, h⟩ | h | h <;> simp [markOf, h]

theorem marks_keepF (env : List Nat → Bool) : ∀ (f : Forest (Unt R)) (shift : Int) (path : List Nat) (k : Nat),
    UBr f →
    (execU env (keepF skel f) shift path k).filterMap markOf = (execU env f shift path k).filterMap markOf
  | .nil, _, _, _, _ => rfl
  | .leaf u rest, shift, path, k, h => by
    rw [keepF]
    by_cases hu : skel u = true
    · rw [if_pos hu, execU, execU, List.filterMap_cons, List.filterMap_cons, marks_keepF env rest shift path k h.2]
    · rw [if_neg hu, marks_keepF env rest shift path k h.2, execU]
      have : markOf (shift + u.time, u) = none := by
        unfold skel at hu
        unfold markOf
        cases hw : u.what with
        | mark b => rw [hw] at hu; simp at hu
        | rest k => rfl
      rw [List.filterMap_cons_none this]
  | .node b body e rest, shift, path, k, h => by
    obtain ⟨h1, h2, h3, h4⟩ := h
    rw [keepF, execU, execU, List.filterMap_append, List.filterMap_append, marks_keepF env rest _ _ _ h4]
    congr 1
    rcases h1 with ⟨n, p, h1⟩ | h1
    · simp only [h1]
      rw [again_filterMap _ _ _ (fun i => rfl), again_filterMap _ _ _ (fun i => rfl)]
      congr 1
      funext i
      simp only [List.filterMap_cons, List.filterMap_append, marks_keepF env body _ _ 0 h3]
    · simp only [h1]
      by_cases hv : env (path ++ [k]) = true
      · simp only [hv, if_true, List.filterMap_cons, List.filterMap_append, marks_keepF env body _ _ 0 h3]
      · simp only [hv]
        rfl

/-! ### From pulses to units -/

def expand : Forest (DOp R) → Forest (Unt R)
  | .nil => .nil
  | .leaf o rest => leaves (units o) (expand rest)
  | .node b body e rest => .node ⟨b.time, match b.act with | .rest k => .rest k | .pulse _ => .mark true⟩ (expand body)
      ⟨e.time, match e.act with | .rest k => .rest k | .pulse _ => .mark true⟩ (expand rest)

theorem expand_flatten : ∀ f : Forest (DOp R), Spec.Bracketed f → (expand f).flatten = f.flatten.flatMap units
  | .nil, _ => rfl
  | .leaf o rest, h => by rw [expand, flatten_leaves, expand_flatten rest h.2]; rfl
  | .node b body e rest, h => by
    obtain ⟨h1, h2, h3, h4⟩ := h
    have hb : units b = [⟨b.time, match b.act with | .rest k => .rest k | .pulse _ => .mark true⟩] := by
      rcases h1 with ⟨n, p, h1⟩ | h1 <;> simp [units, h1]
    have he : units e = [⟨e.time, match e.act with | .rest k => .rest k | .pulse _ => .mark true⟩] := by
      simp [units, h2]
    simp only [expand, Forest.flatten, List.flatMap_cons, List.flatMap_append, hb, he, expand_flatten body h3,
      expand_flatten rest h4]
    rfl

theorem ubr_leaves' {l : List (Unt R)} {f : Forest (Unt R)} (h : ∀ u ∈ l, uctl u = false) (hf : UBr f) :
    UBr (leaves l f) := by
  induction l with
  | nil => exact hf
  | cons a l ih => exact ⟨h a (by simp), ih (fun o ho => h o (by simp [ho]))⟩

theorem expand_ubr : ∀ f : Forest (DOp R), Spec.Bracketed f → UBr (expand f)
  | .nil, _ => trivial
  | .leaf o rest, h => by
    refine ubr_leaves' ?_ (expand_ubr rest h.2)
    have ho := h.1
    intro u hu
    unfold Spec.control at ho
    unfold units at hu
    cases ha : o.act with
    | pulse d =>
      rw [ha] at hu
      simp at hu
      rcases hu with rfl | rfl <;> rfl
    | rest k =>
      rw [ha] at hu ho
      simp at hu
      subst hu
      cases k <;> simp at ho <;> rfl
  | .node b body e rest, h => by
    obtain ⟨h1, h2, h3, h4⟩ := h
    refine ⟨?_, by simp [h2], expand_ubr body h3, expand_ubr rest h4⟩
    rcases h1 with ⟨n, p, h1⟩ | h1
    · exact Or.inl ⟨n, p, by simp [h1]⟩
    · exact Or.inr (by simp [h1])

def edges (q : Int × Int) : List (Int × Bool) := [(q.1, true), (q.2, false)]

theorem execU_leaves (env : List Nat → Bool) (l : List (Unt R)) (f : Forest (Unt R)) (shift : Int)
    (path : List Nat) (k : Nat) :
    execU env (leaves l f) shift path k = l.map (fun o => (shift + o.time, o)) ++ execU env f shift path k := by
  induction l with
  | nil => rfl
  | cons a l ih => simp [leaves, execU, ih]

theorem again_flatMap {α β : Type} (f : Nat → List α) (h : α → List β) : ∀ (n i : Nat),
    (Spec.again f i n).flatMap h = Spec.again (fun i => (f i).flatMap h) i n
  | 0, _ => rfl
  | n + 1, i => by simp only [Spec.again, List.flatMap_append, again_flatMap f h n (i + 1)]

theorem marks_expand (env : List Nat → Bool) : ∀ (f : Forest (DOp R)) (shift : Int) (path : List Nat) (k : Nat),
    Spec.Bracketed f →
    (execU env (expand f) shift path k).filterMap markOf = (Spec.pulses env f shift path k).flatMap edges
  | .nil, _, _, _, _ => rfl
  | .leaf o rest, shift, path, k, h => by
    rw [expand, execU_leaves, List.filterMap_append, marks_expand env rest shift path k h.2, Spec.pulses,
      List.flatMap_append]
    congr 1
    cases ha : o.act with
    | pulse d => simp [units, ha, markOf, edges]
    | rest k => simp [units, ha, markOf, edges]
  | .node b body e rest, shift, path, k, h => by
    obtain ⟨h1, h2, h3, h4⟩ := h
    rw [expand, execU, Spec.pulses, List.filterMap_append, List.flatMap_append, marks_expand env rest _ _ _ h4]
    congr 1
    rcases h1 with ⟨n, p, h1⟩ | h1
    · simp only [h1, h2]
      rw [again_flatMap]
      apply again_filterMap
      intro i
      simp only [List.filterMap_cons, List.filterMap_append, markOf, marks_expand env body _ _ 0 h3]
      simp
    · simp only [h1, h2]
      by_cases hv : env (path ++ [k]) = true
      · simp only [hv, if_true, List.filterMap_cons, List.filterMap_append, markOf, marks_expand env body _ _ 0 h3]
        simp
      · simp only [hv]
        simp [markOf]

/-! ### Pulses one after the other -/

theorem level_of_edges (l : Levels) (now : Int) : ∀ (P : List (Int × Int)) (v : Nat), Spec.Sequential P →
    (∀ q ∈ P, q.1 ≤ q.2) →
    ((∃ q ∈ P, q.1 ≤ now) → ((P.flatMap edges).filter (fun m => decide (m.1 ≤ now))).foldl (fun _ m => lev l m.2) v
        = open Classical in if Spec.On P now then l.high else l.low) ∧
    ((¬∃ q ∈ P, q.1 ≤ now) →
      ((P.flatMap edges).filter (fun m => decide (m.1 ≤ now))).foldl (fun _ m => lev l m.2) v = v)
  | [], v, _, _ => ⟨fun ⟨q, h, _⟩ => by simp at h, fun _ => rfl⟩
  | q :: P, v, hs, hd => by
    rw [Spec.Sequential, List.pairwise_cons] at hs
    have hq := hd q (by simp)
    have hd' : ∀ x ∈ P, x.1 ≤ x.2 := fun x hx => hd x (by simp [hx])
    have ih := fun v => level_of_edges l now P v hs.2 hd'
    have step : ∀ v, (((q :: P).flatMap edges).filter (fun m => decide (m.1 ≤ now))).foldl (fun _ m => lev l m.2) v =
        ((P.flatMap edges).filter (fun m => decide (m.1 ≤ now))).foldl (fun _ m => lev l m.2)
          (if q.2 ≤ now then l.low else if q.1 ≤ now then l.high else v) := by
      intro v
      rw [List.flatMap_cons, List.filter_append, List.foldl_append]
      congr 1
      by_cases h2 : q.2 ≤ now
      · have h1 : q.1 ≤ now := by omega
        simp [edges, h1, h2, lev]
      · by_cases h1 : q.1 ≤ now <;> simp [edges, h1, h2, lev]
    rw [step]
    by_cases hP : ∃ x ∈ P, x.1 ≤ now
    · refine ⟨fun _ => ?_, fun hn => absurd ?_ hn⟩
      · rw [(ih _).1 hP]
        obtain ⟨x, hx, hxn⟩ := hP
        have hqx := hs.1 x hx
        have : Spec.On (q :: P) now ↔ Spec.On P now := by
          constructor
          · rintro ⟨y, hy, h1, h2⟩
            rcases List.mem_cons.mp hy with rfl | hy
            · omega
            · exact ⟨y, hy, h1, h2⟩
          · rintro ⟨y, hy, h⟩
            exact ⟨y, by simp [hy], h⟩
        rw [this]
      · obtain ⟨x, hx, h⟩ := hP
        exact ⟨x, by simp [hx], h⟩
    · rw [(ih _).2 hP]
      have hon : Spec.On (q :: P) now ↔ q.1 ≤ now ∧ now < q.2 := by
        constructor
        · rintro ⟨y, hy, h1, h2⟩
          rcases List.mem_cons.mp hy with rfl | hy
          · exact ⟨h1, h2⟩
          · exact absurd ⟨y, hy, h1⟩ hP
        · exact fun h => ⟨q, by simp, h⟩
      constructor
      · rintro ⟨y, hy, hyn⟩
        have hqn : q.1 ≤ now := by
          rcases List.mem_cons.mp hy with rfl | hy
          · exact hyn
          · exact absurd ⟨y, hy, hyn⟩ hP
        by_cases h2 : q.2 ≤ now
        · rw [if_pos h2, if_neg (fun h => by have := hon.mp h; omega)]
        · rw [if_neg h2, if_pos hqn, if_pos (hon.mpr (by omega))]
      · intro hn
        have : ¬q.1 ≤ now := fun h => hn ⟨q, by simp, h⟩
        rw [if_neg (by omega), if_neg this]

/-! ### Order -/

theorem units_skel (ops : List (DOp R)) : (ops.flatMap units).filter skel = (Spec.outline ops).flatMap units := by
  induction ops with
  | nil => rfl
  | cons o ops ih =>
    have ho : Spec.outline (o :: ops) = if (Spec.pulse o || Spec.control o) = true then o :: Spec.outline ops
        else Spec.outline ops := by
      unfold Spec.outline
      rw [List.filter_cons]
    rw [List.flatMap_cons, List.filter_append, ih, ho]
    cases ha : o.act with
    | pulse d =>
      have h1 : (Spec.pulse o || Spec.control o) = true := by simp [Spec.pulse, ha]
      have h2 : (units o).filter skel = units o := by simp [units, ha, List.filter, skel]
      rw [if_pos h1, h2, List.flatMap_cons]
    | rest k =>
      have h1 : (Spec.pulse o || Spec.control o) = skel (⟨o.time, .rest k⟩ : Unt R) := by
        cases k <;> simp [Spec.pulse, Spec.control, ha, skel]
      have h2 : units o = [⟨o.time, .rest k⟩] := by simp [units, ha]
      rw [h1, h2, List.filter_cons]
      by_cases hk : skel (⟨o.time, .rest k⟩ : Unt R) = true
      · rw [if_pos hk, if_pos hk, List.flatMap_cons, h2]
        rfl
      · rw [if_neg hk, if_neg hk]
        rfl

theorem units_sorted : ∀ (ops : List (DOp R)), (∀ o ∈ ops, ∀ d, o.act = .pulse d → 0 ≤ d) →
    ops.Pairwise (fun a b => Spec.stop a ≤ b.time) → (ops.flatMap units).Pairwise (fun a b => a.time ≤ b.time)
  | [], _, _ => List.Pairwise.nil
  | o :: ops, hd, h => by
    rw [List.pairwise_cons] at h
    have ih := units_sorted ops (fun o ho => hd o (by simp [ho])) h.2
    have ho := hd o (by simp)
    have le : ∀ u ∈ units o, u.time ≤ Spec.stop o := by
      intro u hu
      unfold units at hu
      unfold Spec.stop
      cases ha : o.act with
      | pulse d =>
        rw [ha] at hu
        have := ho d ha
        simp at hu
        rcases hu with rfl | rfl <;> simp <;> omega
      | rest k =>
        rw [ha] at hu
        simp at hu
        subst hu
        simp
    have ge : ∀ b ∈ ops, ∀ u ∈ units b, b.time ≤ u.time := by
      intro b hb u hu
      unfold units at hu
      cases ha : b.act with
      | pulse d =>
        rw [ha] at hu
        have := hd b (by simp [hb]) d ha
        simp at hu
        rcases hu with rfl | rfl <;> simp <;> omega
      | rest k =>
        rw [ha] at hu
        simp at hu
        subst hu
        simp
    rw [List.flatMap_cons, List.pairwise_append]
    refine ⟨?_, ih, ?_⟩
    · unfold units
      cases ha : o.act with
      | pulse d =>
        have := ho d ha
        simp
        omega
      | rest k => simp
    · intro u hu w hw
      obtain ⟨b, hb, hw⟩ := List.mem_flatMap.mp hw
      exact le_trans (le u hu) (le_trans (h.1 b hb) (ge b hb w hw))

theorem pulses_le (env : List Nat → Bool) : ∀ (f : Forest (DOp R)) (shift : Int) (path : List Nat) (k : Nat),
    (∀ o ∈ f.flatten, ∀ d, o.act = .pulse d → 0 ≤ d) → ∀ q ∈ Spec.pulses env f shift path k, q.1 ≤ q.2
  | .nil, _, _, _, _ => fun q hq => by simp [Spec.pulses] at hq
  | .leaf o rest, shift, path, k, h => fun q hq => by
    rw [Spec.pulses, List.mem_append] at hq
    rcases hq with hq | hq
    · cases ha : o.act with
      | pulse d =>
        rw [ha] at hq
        have := h o (by simp [Forest.flatten]) d ha
        simp at hq
        subst hq
        simp
        omega
      | rest k => rw [ha] at hq; simp at hq
    · exact pulses_le env rest shift path k (fun o ho => h o (by simp [Forest.flatten, ho])) q hq
  | .node b body e rest, shift, path, k, h => fun q hq => by
    have hb := fun s p k => pulses_le env body s p k (fun o ho => h o (by simp [Forest.flatten, ho]))
    have ag : ∀ (f : Nat → List (Int × Int)), (∀ i, ∀ q ∈ f i, q.1 ≤ q.2) → ∀ n i, ∀ q ∈ Spec.again f i n, q.1 ≤ q.2 := by
      intro f hf n
      induction n with
      | zero => intro i q hq; simp [Spec.again] at hq
      | succ n ih =>
        intro i q hq
        rw [Spec.again, List.mem_append] at hq
        rcases hq with hq | hq
        · exact hf i q hq
        · exact ih (i + 1) q hq
    rw [Spec.pulses, List.mem_append] at hq
    rcases hq with hq | hq
    · split at hq
      · exact ag _ (fun i => hb _ _ _) _ _ q hq
      · split at hq
        · exact hb _ _ _ q hq
        · simp at hq
    · exact pulses_le env rest shift path (k + 1) (fun o ho => h o (by simp [Forest.flatten, ho])) q hq

end Verif.Digital
