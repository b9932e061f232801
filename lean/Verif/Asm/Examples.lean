/-
C72: examples.
-/
import Verif.Asm.Limits
import Verif.Asm.Text

namespace Verif.Asm.Examples

open Verif.Asm
open Spec

def n (s : String) : Name := s.toList

/-- The code of the compiler around the block. -/
def before : List Line :=
  [⟨none, n "wait_sync", [n "4"], []⟩, ⟨some (n "start"), n "reset_ph", [], []⟩, ⟨none, n "move", [n "10", n "R0"], []⟩,
    ⟨some (n "loop3"), [], [], []⟩]

def after : List Line := [⟨none, n "loop", [n "R0", n "@loop3"], []⟩, ⟨none, n "stop", [], []⟩]

/-- A loop with two registers, one of which the program uses for itself, an empty line, and a comment. -/
def block : List Line :=
  [⟨none, n "move", [n "5", n "R0"], []⟩, ⟨none, [], [], []⟩, ⟨some (n "again"), n "add", [n "R3", n "1", n "R3"], []⟩,
    ⟨none, n "loop", [n "R0", n "@again"], n "five times"⟩]

def avail0 : List Name := [n "R0", n "R1", n "R2"]
def avail1 : List Name := [n "R1", n "R2"]

def pieces : List Piece := [.code before avail1 0, .block true block (1/1000000), .block true block 0, .code after avail0 5]

/-- The block twice: registers R1 and R2 instead of R0 and R3, and labels that differ. -/
theorem built : build ⟨[], avail0, 0⟩ pieces = .ok ⟨before ++
    [⟨none, n "move", [n "5", n "R1"], n "[inline] "⟩,
      ⟨some (n "inj4_again"), n "add", [n "R2", n "1", n "R2"], n "[inline] "⟩,
      ⟨none, n "loop", [n "R1", n "@inj4_again"], n "[inline] five times"⟩,
      ⟨none, n "move", [n "5", n "R1"], n "[inline] "⟩,
      ⟨some (n "inj7_again"), n "add", [n "R2", n "1", n "R2"], n "[inline] "⟩,
      ⟨none, n "loop", [n "R1", n "@inj7_again"], n "[inline] five times"⟩] ++ after, avail0, 5⟩ := by
  rfl

theorem regs0 : RegList avail0 := by
  refine ⟨by decide, ?_⟩
  intro r hr
  simp only [avail0, List.mem_cons, List.not_mem_nil, or_false] at hr
  rcases hr with rfl | rfl | rfl
  exacts [⟨['0'], rfl⟩, ⟨['1'], rfl⟩, ⟨['2'], rfl⟩]

theorem regs1 : RegList avail1 := by
  refine ⟨by decide, ?_⟩
  intro r hr
  simp only [avail1, List.mem_cons, List.not_mem_nil, or_false] at hr
  rcases hr with rfl | rfl
  exacts [⟨['1'], rfl⟩, ⟨['2'], rfl⟩]

theorem ours_of {ls : List Line} (h : ∀ l ∈ ls, ∀ s ∈ l.label, ("inj".toList).isPrefixOf s = false) :
    ∀ l ∈ ls, Ours l := by
  intro l hl s hs hp
  have := h l hl s hs
  rw [List.isPrefixOf_iff_prefix.mpr hp] at this
  cases this

theorem proper : ∀ p ∈ pieces, Proper p := by
  intro p hp
  simp only [pieces, List.mem_cons, List.not_mem_nil, or_false] at hp
  rcases hp with rfl | rfl | rfl | rfl
  · exact ⟨ours_of (by decide), regs1⟩
  · rfl
  · rfl
  · exact ⟨ours_of (by decide), regs0⟩

/-- `block_runs` for the second use. -/
theorem second_runs : ∃ q P, build ⟨[], avail0, 0⟩ pieces = .ok P ∧
    build ⟨[], avail0, 0⟩ (pieces.take 2) = .ok q ∧ q.instrs.length = 7 ∧ RunsAs P.instrs 7 q.avail block := by
  obtain ⟨q, hq, hr⟩ := block_runs (ps := pieces.take 2) (qs := pieces.drop 3) (block := block) (d := 0) regs0 built
    (fun p hp => proper p (List.mem_of_mem_take hp)) (fun p hp => proper p (List.mem_of_mem_drop hp))
  have h7 : q.instrs.length = 7 := by
    have : ∃ e, build ⟨[], avail0, 0⟩ (pieces.take 2) = .ok ⟨before ++
      [⟨none, n "move", [n "5", n "R1"], n "[inline] "⟩,
      ⟨some (n "inj4_again"), n "add", [n "R2", n "1", n "R2"], n "[inline] "⟩,
      ⟨none, n "loop", [n "R1", n "@inj4_again"], n "[inline] five times"⟩], avail1, e⟩ := ⟨_, rfl⟩
    obtain ⟨e, he⟩ := this
    rw [he] at hq
    cases hq
    rfl
  exact ⟨q, _, built, hq, h7, h7 ▸ hr⟩

/-- A meaning: `move`, `add` and `loop`. -/
def meaning : Meaning Nat := fun i ops w =>
  if i = n "move" then
    match ops with
    | [.imm ['5'], .reg _] => ([(1, 5)], w + 1, .fall)
    | _ => ([], w, .halt)
  else if i = n "add" then
    match ops with
    | [.reg a, .imm _, .reg _] => ([(2, a + 1)], w + 1, .fall)
    | _ => ([], w, .halt)
  else if i = n "loop" then
    match ops with
    | [.reg a, _] => ([(0, a - 1)], w + 1, if a = 1 then .fall else .jump 1)
    | _ => ([], w, .halt)
  else ([], w, .halt)

/-- Alone, the block runs five times through its loop. -/
example : ((fun s => s.bind (step meaning block))^[12] (some (0, fun _ => 0, 0))).map
    (fun s => (s.1, s.2.1 (n "R0"), s.2.1 (n "R3"), s.2.2)) = some (4, 0, 5, 11) := by
  decide +kernel

/-- The registers of the block, for `accepted_iff`. -/
example : Registers block [n "R0", n "R3"] := by
  refine ⟨by decide, ?_⟩
  intro r
  constructor
  · intro hr
    simp only [List.mem_cons, List.not_mem_nil, or_false] at hr
    rcases hr with rfl | rfl
    · exact ⟨⟨['0'], rfl⟩, ⟨none, n "move", [n "5", n "R0"], []⟩, by decide, by decide⟩
    · exact ⟨⟨['3'], rfl⟩, ⟨some (n "again"), n "add", [n "R3", n "1", n "R3"], []⟩, by decide, by decide⟩
  · rintro ⟨⟨m, rfl⟩, l, hl, ha⟩
    simp only [block, List.mem_cons, List.not_mem_nil, or_false] at hl
    rcases hl with rfl | rfl | rfl | rfl <;> simp [n] at ha ⊢ <;> simp [ha]

/-- With one register less, the block is refused. -/
example : (∃ e, inject ⟨[], [n "R1"], 0⟩ true block 0 = .error e) := ⟨.indexError, rfl⟩

/-- Waveforms of two blocks, and a pulse: the pulse gets an index that is free. -/
example : ∃ tab, addBlocks (K := Nat) [] [[⟨7, [1], 3⟩], [⟨8, [1/4], 0⟩]] = .ok tab ∧
    ((Waves.addAll (fun _ => 9) tab [[1/2]]).1.map Waves.Entry.index) = [3, 0, 1] :=
  ⟨_, rfl, by decide +kernel⟩

/-- A line, as in the documentation of the function. -/
example : Matches (n "example_label: move 10, R1  # Initialize R1")
    ⟨some (n "example_label"), n "move", [n "10", n "R1"], n "Initialize R1"⟩ :=
  matches_line [] (n " ") (n " ") (n "  ") (some (n "example_label")) (n "move") (n "10") [(n " ", n "R1")]
    (n " Initialize R1") (by simp [Blanks]) (by simp [Blanks, n]) (by simp [Blanks, n]) (by decide)
    (by simp [Blanks, n])
    (by
      intro l hl
      cases hl
      exact ⟨'e', n "xample_label", rfl, .inl (by decide), by decide⟩)
    ⟨by decide, by decide⟩ ⟨n "10", .inl ⟨by decide, by decide, .inl rfl⟩⟩
    (by
      intro p hp
      simp only [List.mem_cons, List.not_mem_nil, or_false] at hp
      subst hp
      exact ⟨by simp [Blanks, n], ⟨['1'], .inl ⟨by decide, by decide, .inr rfl⟩⟩⟩)
    (by decide)

/-- `set_awg_gain -100,0` is refused. -/
example (l : Line) : ¬ Matches (n "set_awg_gain -100,0") l := negative_refused (by decide) l

end Verif.Asm.Examples
