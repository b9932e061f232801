/-
Non-vacuity of C45 and C46, and more findings.
-/
import Verif.Json.Props
import Mathlib.Data.Rat.Encodable
import Mathlib.Logic.Encodable.Basic

set_option linter.unusedSimpArgs false
set_option linter.unusedVariables false

namespace Verif.Json
open Spec

/-- Some way to write numbers that can be read back. -/
def demoText : Text where
  int i := String.ofList (List.replicate (Encodable.encode i) 'x')
  flt q := String.ofList (List.replicate (Encodable.encode q) 'x')
  cplx re im := String.ofList (List.replicate (Encodable.encode (re, im)) 'x')
  readInt s := Encodable.decode s.toList.length
  readCplx s := Encodable.decode s.toList.length
  readInt_int i := by simp
  readCplx_cplx re im := by simp

abbrev schedQual : String := "quantify_scheduler.schedules.schedule.Schedule"
abbrev compQual : String := "quantify_scheduler.schedules.schedule.CompiledSchedule"
abbrev schedulableQual : String := "quantify_scheduler.schedules.schedule.Schedulable"
abbrev timingQual : String := "quantify_scheduler.schedules.schedule.TimingConstraint"
abbrev clockQual : String := "quantify_scheduler.resources.ClockResource"
abbrev magQual : String := "quantify_scheduler.operations.pulse_library.ReferenceMagnitude"
abbrev pulseQual : String := "quantify_scheduler.operations.pulse_library.SquarePulse"

/-- The classes of quantify-scheduler. -/
def demoEnv : Env where
  toText := demoText
  imports s :=
    if s = schedQual then some (.user .schedule s)
    else if s = compQual then some (.user .compiled s)
    else if s = schedulableQual then some (.user .schedulable s)
    else if s = timingQual then some (.user .timing s)
    else if s = clockQual then some (.user .resource s)
    else if s = magQual then some (.user .refmag s)
    else if s = pulseQual then some (.user .operation s)
    else none
  legacy _ := none
  member _ _ := true
  py311 := true

theorem known_schedule : Known demoEnv .schedule schedQual := ⟨by decide, rfl⟩
theorem known_compiled : Known demoEnv .compiled compQual := ⟨by decide, rfl⟩
theorem known_schedulable : Known demoEnv .schedulable schedulableQual := ⟨by decide, rfl⟩
theorem known_timing : Known demoEnv .timing timingQual := ⟨by decide, rfl⟩
theorem known_resource : Known demoEnv .resource clockQual := ⟨by decide, rfl⟩
theorem known_refmag : Known demoEnv .refmag magQual := ⟨by decide, rfl⟩
theorem known_operation : Known demoEnv .operation pulseQual := ⟨by decide, rfl⟩

theorem strKeys_of {d : List (Key × Val)} (l : List String) (h : d.map Prod.fst = l.map .str)
    (h1 : "deserialization_type" ∉ l) (h2 : l.Nodup) : StrKeys d := by
  constructor
  · intro e he
    have hm : e.1 ∈ l.map Key.str := by rw [← h]; exact List.mem_map.mpr ⟨e, he, rfl⟩
    obtain ⟨s, hs, he1⟩ := List.mem_map.mp hm
    exact ⟨s, he1.symm, fun hc => h1 (hc ▸ hs)⟩
  · rw [h]
    exact h2.map (fun a b hab => by simpa using hab)

/-- A pulse with a reference magnitude (so that it holds an object), a complex number, an array and a
tuple. -/
def demoPulse : Val :=
  .obj .operation pulseQual
    [(.str "name", .str "SquarePulse"), (.str "gate_info", .dict []),
     (.str "pulse_info", .list [.dict [(.str "amp", .cplx false (1 / 2) 1),
        (.str "reference_magnitude", .obj .refmag magQual
          [(.str "value", .flt (1 / 4)), (.str "unit", .str "V")] 0),
        (.str "samples", .array [.flt 0, .flt (1 / 2)]), (.str "pair", .tuple [.int 1, .none]),
        (.str "t0", .int 1), (.str "duration", .flt 3)]]),
     (.str "acquisition_info", .list []), (.str "logic_info", .dict [])] 4

theorem demoPulse_ok : Ok demoEnv demoPulse := by
  refine .operation _ _ _ known_operation
    (strKeys_of ["name", "gate_info", "pulse_info", "acquisition_info", "logic_info"] rfl (by decide)
      (by decide)) ⟨?_, ?_⟩ ?_
  · intro g hg
    simp only [List.mem_cons, Prod.mk.injEq, Key.str.injEq, String.reduceEq, false_and, true_and,
      List.not_mem_nil, or_false, false_or] at hg
    exact Or.inr ⟨[], hg, by simp⟩
  · refine ⟨_, [], [4], List.mem_cons_of_mem _ (List.mem_cons_of_mem _ List.mem_cons_self),
      by simp, ?_, Or.inr ⟨by simp, by simp⟩⟩
    refine List.Forall₂.cons ⟨_, .int 1, .flt 3, 1, 3, rfl, by simp, by simp, ?_, .flt 3, by norm_num⟩
      List.Forall₂.nil
    have := Number.int 1
    simpa using this
  · intro e he
    simp only [List.mem_cons, List.not_mem_nil, or_false] at he
    rcases he with rfl | rfl | rfl | rfl | rfl
    · exact .str _
    · exact .dict _ (strKeys_of [] rfl (by decide) (by decide)) (by simp)
    · refine .list _ (fun v hv => ?_)
      simp only [List.mem_cons, List.not_mem_nil, or_false] at hv
      subst hv
      refine .dict _ (strKeys_of ["amp", "reference_magnitude", "samples", "pair", "t0", "duration"]
        rfl (by decide) (by decide)) (fun e he => ?_)
      simp only [List.mem_cons, List.not_mem_nil, or_false] at he
      rcases he with rfl | rfl | rfl | rfl | rfl | rfl
      · exact .cplx _ _ _
      · exact .refmag _ _ _ known_refmag (.flt _) (.str _)
      · refine .array _ (fun v hv => ?_)
        simp only [List.mem_cons, List.not_mem_nil, or_false] at hv
        rcases hv with rfl | rfl <;> exact .flt _
      · refine .tuple _ (fun v hv => ?_)
        simp only [List.mem_cons, List.not_mem_nil, or_false] at hv
        rcases hv with rfl | rfl
        · exact .int _
        · exact .none
      · exact .int _
      · exact .flt _
    · exact .list _ (by simp)
    · exact .dict _ (strKeys_of [] rfl (by decide) (by decide)) (by simp)

/-- A schedulable with a timing constraint. -/
def demoSchedulable : Val :=
  .obj .schedulable schedulableQual [(.str "name", .str "first"), (.str "operation_id", .str "123"),
    (.str "timing_constraints", .list [.obj .timing timingQual
      [(.str "ref_schedulable", .none), (.str "ref_pt", .str "end"), (.str "ref_pt_new", .none),
       (.str "rel_time", .flt 0)] 0])] 0

theorem demoSchedulable_ok : Ok demoEnv demoSchedulable := by
  refine .schedulable _ _ known_schedulable
    (strKeys_of ["name", "operation_id", "timing_constraints"] rfl (by decide) (by decide)) ?_
  intro e he
  simp only [List.mem_cons, List.not_mem_nil, or_false] at he
  rcases he with rfl | rfl | rfl
  · exact .str _
  · exact .str _
  · refine .list _ (fun v hv => ?_)
    simp only [List.mem_cons, List.not_mem_nil, or_false] at hv
    subst hv
    exact .timing _ _ _ _ _ known_timing .none (.str _) .none (.flt _)

/-- The data that a schedule and its compiled form share. -/
def demoData : List (Key × Val) :=
  [(.str "operation_dict", .dict [(.str "123", demoPulse)]),
   (.str "schedulables", .dict [(.str "second", demoSchedulable), (.str "first", demoSchedulable)]),
   (.str "resource_dict", .dict [(.str "cl0.baseband",
      .obj .resource clockQual [(.str "name", .str "cl0.baseband"), (.str "freq", .int 0)] 0)]),
   (.str "name", .str "demo"), (.str "repetitions", .int 1024)]

theorem demoData_ok : ∀ e ∈ demoData, Ok demoEnv e.2 := by
  intro e he
  simp only [demoData, List.mem_cons, List.not_mem_nil, or_false] at he
  rcases he with rfl | rfl | rfl | rfl | rfl
  · refine .dict _ (strKeys_of ["123"] rfl (by decide) (by decide)) (fun e he => ?_)
    simp only [List.mem_cons, List.not_mem_nil, or_false] at he
    subst he
    exact demoPulse_ok
  · refine .dict _ (strKeys_of ["second", "first"] rfl (by decide) (by decide)) (fun e he => ?_)
    simp only [List.mem_cons, List.not_mem_nil, or_false] at he
    rcases he with rfl | rfl <;> exact demoSchedulable_ok
  · refine .dict _ (strKeys_of ["cl0.baseband"] rfl (by decide) (by decide)) (fun e he => ?_)
    simp only [List.mem_cons, List.not_mem_nil, or_false] at he
    subst he
    refine .resource _ _ known_resource (strKeys_of ["name", "freq"] rfl (by decide) (by decide))
      (fun e he => ?_)
    simp only [List.mem_cons, List.not_mem_nil, or_false] at he
    rcases he with rfl | rfl
    · exact .str _
    · exact .int _
  · exact .str _
  · exact .int _

/-- Non-vacuity of C45: a schedule. Note that the order of the schedulables comes back. -/
example : roundTrip demoEnv (.obj .schedule schedQual demoData 0) =
    .ok (listify (.obj .schedule schedQual demoData 0)) :=
  round_trip demoEnv (.schedule _ _ known_schedule
    (strKeys_of ["operation_dict", "schedulables", "resource_dict", "name", "repetitions"] rfl
      (by decide) (by decide)) ⟨_, List.mem_cons_of_mem _ List.mem_cons_self⟩ demoData_ok)

/-- Non-vacuity of the exact form: a schedulable. -/
example : roundTrip demoEnv demoSchedulable = .ok demoSchedulable := by
  refine round_trip_same demoEnv demoSchedulable_ok (.obj _ _ _ _ (fun e he => ?_) (fun e he => ?_))
  · simp only [List.mem_cons, List.not_mem_nil, or_false] at he
    rcases he with rfl | rfl | rfl
    · exact .leaf _ (by simp) (by simp) (by simp) (by simp) (by simp) (by simp)
    · exact .leaf _ (by simp) (by simp) (by simp) (by simp) (by simp) (by simp)
    · refine .list _ (fun v hv => ?_)
      simp only [List.mem_cons, List.not_mem_nil, or_false] at hv
      subst hv
      refine .obj _ _ _ _ (fun e he => ?_) (fun e he => ?_) <;>
        simp only [List.mem_cons, List.not_mem_nil, or_false] at he <;>
        rcases he with rfl | rfl | rfl | rfl <;>
        first | (exact .leaf _ (by simp) (by simp) (by simp) (by simp) (by simp) (by simp)) | simp
  · simp only [List.mem_cons, List.not_mem_nil, or_false] at he
    rcases he with rfl | rfl | rfl <;> simp

/-- The compiled instructions of one instrument, with an acquisition channel named by a number. -/
def demoInstructions (channel : Key) : List (Key × Val) :=
  [(.str "cluster0", .dict [(.str "settings", .str "..."),
    (.str "acq_channels_data", .dict [(channel, .obj .acqdata acqQual
      [(.str "acq_index_dim_name", .str "acq_index_0"), (.str "protocol", .str "SSBIntegrationComplex"),
       (.str "bin_mode", .senum "BinMode" "average"), (.str "coords", .list [])] 0)])]),
   (.str "generic", .none)]

/-- Non-vacuity of C45: a compiled schedule. The acquisition channel 0 comes back as the number 0, the
bin mode as the string. -/
example : roundTrip demoEnv (.obj .compiled compQual
      ((.str "compiled_instructions", .dict (demoInstructions (.int 0))) :: demoData) 0) =
    .ok (listify (.obj .compiled compQual
      ((.str "compiled_instructions", .dict (demoInstructions (.int 0))) :: demoData) 0)) := by
  refine round_trip demoEnv (.compiled _ _ (demoInstructions (.int 0)) known_compiled
    (strKeys_of ["compiled_instructions", "operation_dict", "schedulables", "resource_dict", "name",
      "repetitions"] rfl (by decide) (by decide))
    ⟨_, List.mem_cons_of_mem _ (List.mem_cons_of_mem _ List.mem_cons_self)⟩ List.mem_cons_self
    (strKeys_of ["cluster0", "generic"] rfl (by decide) (by decide)) ?_ ?_ ?_ ?_ ?_ ?_)
  · intro e he hne
    rcases List.mem_cons.mp he with rfl | he
    · exact absurd rfl hne
    · exact demoData_ok e he
  · intro c hc hD
    simp only [demoInstructions, List.mem_cons, List.not_mem_nil, or_false] at hc
    rcases hc with rfl | rfl
    · exact absurd rfl (hD _)
    · exact .none
  · intro c hc D hD
    simp only [demoInstructions, List.mem_cons, List.not_mem_nil, or_false] at hc
    rcases hc with rfl | rfl
    · cases hD
      exact strKeys_of ["settings", "acq_channels_data"] rfl (by decide) (by decide)
    · cases hD
  · intro c hc D hD e he hne
    simp only [demoInstructions, List.mem_cons, List.not_mem_nil, or_false] at hc
    rcases hc with rfl | rfl
    · cases hD
      simp only [List.mem_cons, List.not_mem_nil, or_false] at he
      rcases he with rfl | rfl
      · exact .str _
      · exact absurd rfl hne
    · cases hD
  · intro c hc D hD v hv
    simp only [demoInstructions, List.mem_cons, List.not_mem_nil, or_false] at hc
    rcases hc with rfl | rfl
    · cases hD
      simp only [List.mem_cons, Prod.mk.injEq, Key.str.injEq, String.reduceEq, false_and, true_and,
        List.not_mem_nil, or_false, false_or] at hv
      refine ⟨_, hv, ?_, ?_, ?_⟩
      · simp
      · simp
      · intro x hx
        simp only [List.mem_cons, List.not_mem_nil, or_false] at hx
        subst hx
        exact ⟨_, _, _, _, rfl⟩
    · cases hD
  · intro c hc D hD A hA x hx q f r hxq y hy
    simp only [demoInstructions, List.mem_cons, List.not_mem_nil, or_false] at hc
    rcases hc with rfl | rfl
    · cases hD
      simp only [List.mem_cons, Prod.mk.injEq, Key.str.injEq, String.reduceEq, false_and, true_and,
        List.not_mem_nil, or_false, false_or, Val.dict.injEq] at hA
      subst hA
      simp only [List.mem_cons, List.not_mem_nil, or_false] at hx
      subst hx
      cases hxq
      simp only [List.mem_cons, List.not_mem_nil, or_false] at hy
      rcases hy with rfl | rfl | rfl | rfl
      · exact .str _
      · exact .str _
      · exact .senum _ _
      · exact .list _ (by simp)
    · cases hD

/-- Finding: with a tuple as acquisition channel the compiled schedule is written without error, but
reading it fails: the tuple has become a list, which is no dictionary key. -/
theorem tuple_channel_not_read (E : Env) (hq : Known E .compiled compQual) (l : List String) :
    roundTrip E (.obj .compiled compQual [(.str "schedulables", .dict []),
      (.str "compiled_instructions", .dict (demoInstructions (.tup l)))] 0) = .error .typeError := by
  have h0 (s : String) : dec E (.str s) = .ok (.str s) := by simp [dec]
  have he : enc E (.obj .compiled compQual [(.str "schedulables", .dict []),
      (.str "compiled_instructions", .dict (demoInstructions (.tup l)))] 0) =
      .ok (state compQual [("schedulables", .arr []), ("compiled_instructions",
        .obj [("cluster0", .obj [("settings", .str "..."), ("acq_channels_data", .arr [.obj [
          ("key", .arr (l.map .str)), ("value", .obj [("acq_index_dim_name", .str "acq_index_0"),
            ("protocol", .str "SSBIntegrationComplex"), ("bin_mode", .str "average"),
            ("coords", .arr [])])]])]), ("generic", .null)])]) := by
    rfl
  have hl : decList E (l.map Json.str) = .ok (l.map Val.str) := by
    induction l with
    | nil => rfl
    | cons s l ih =>
      simp only [List.map_cons, decList, h0]
      rw [ih rfl]
      rfl
  have hkey : dec E (.arr (l.map Json.str)) = .ok (.list (l.map Val.str)) := by
    simp only [dec, hl]; rfl
  have plain : ∀ (js : List (String × Json)) (d : List (Key × Val)) (names : List String),
      decMembers E js = .ok d → d.map Prod.fst = names.map Key.str →
      "deserialization_type" ∉ names → names.Nodup → dec E (.obj js) = .ok (.dict d) := by
    intro js d names h1 h2 h3 h4
    exact dec_obj_plain E h1 (strKeys_of names h2 h3 h4).1 (strKeys_of names h2 h3 h4).2
  simp only [roundTrip, he, bind, Except.bind]
  have hend : decMembers E [] = .ok [] := rfl
  have hnil : dec E (.arr []) = .ok (.list []) := rfl
  have hval := plain _ _ ["acq_index_dim_name", "protocol", "bin_mode", "coords"]
    (decMembers_cons E (s := "acq_index_dim_name") (h0 "acq_index_0")
      (decMembers_cons E (s := "protocol") (h0 "SSBIntegrationComplex")
        (decMembers_cons E (s := "bin_mode") (h0 "average")
          (decMembers_cons E (s := "coords") hnil hend)))) rfl (by decide) (by decide)
  have hch := plain _ _ ["key", "value"] (decMembers_cons E (s := "key") hkey
    (decMembers_cons E (s := "value") hval hend)) rfl (by decide) (by decide)
  have harr : ∀ j v, dec E j = .ok v → dec E (.arr [j]) = .ok (.list [v]) := by
    intro j v h; simp only [dec, decList, h]; rfl
  have hcomp := plain _ _ ["settings", "acq_channels_data"]
    (decMembers_cons E (s := "settings") (h0 "...")
      (decMembers_cons E (s := "acq_channels_data") (harr _ _ hch) hend)) rfl (by decide) (by decide)
  have hinst := plain _ _ ["cluster0", "generic"] (decMembers_cons E (s := "cluster0") hcomp
    (decMembers_cons E (s := "generic") (show dec E .null = .ok .none from rfl) hend)) rfl (by decide)
      (by decide)
  have hdata := plain _ _ ["schedulables", "compiled_instructions"]
    (decMembers_cons E (s := "schedulables") hnil
      (decMembers_cons E (s := "compiled_instructions") hinst hend)) rfl (by decide) (by decide)
  rw [dec_state E hq hdata]
  simp only [setState, setCompiled, stateData_state, bind, Except.bind]
  simp [Dict.get?_cons, setComponent, setChannel, asKey, bind, Except.bind, List.mapM_cons]

/-- Finding: a dictionary that happens to have the reserved key (say, in the data of an operation) is
not read back: here the whole document is refused. -/
theorem reserved_key_not_read (E : Env) (t : String) (ht : t ∉ reserved) (h1 : E.imports t = none)
    (h2 : E.legacy t = none) :
    roundTrip E (.dict [(.str "deserialization_type", .str t), (.str "data", .none)]) =
      .error (.unknownType t) := by
  have he : enc E (.dict [(.str "deserialization_type", .str t), (.str "data", .none)]) =
    .ok (.obj [("deserialization_type", .str t), ("data", .null)]) := rfl
  simp only [roundTrip, he, bind, Except.bind]
  exact unknown_type_refused E t .null .none rfl ht h1 h2

/-- Finding: an array with no axis is lost without an error. -/
theorem array0_lost (E : Env) (q : Rat) : roundTrip E (.array0 q) =
    .ok (.dict [(.str "unserializable_object", .bool true), (.str "type", .str (lastName "ndarray"))]) := by
  have he : enc E (.array0 q) = .ok (unserializable "ndarray") := rfl
  simp only [roundTrip, he, bind, Except.bind, unserializable]
  apply dec_obj_plain E (decMembers_cons E (show dec E (.bool true) = .ok (.bool true) from rfl)
    (decMembers_cons E (show dec E (.str _) = .ok (.str _) from rfl) rfl))
  · intro e he
    simp only [List.mem_cons, List.not_mem_nil, or_false] at he
    rcases he with rfl | rfl <;> exact ⟨_, rfl, by decide⟩
  · simp

/-- Some hash functions. -/
def demoHashes : Hashes where
  str s := s.length
  none := 7
  tuple l := l.foldl (fun a b => 31 * a + b) 1
  set l := (l.map Prod.snd).sum
  array l := l.length
  cplx _ _ := 0
  cls _ := 1
  enum _ _ := 2
  inv n := n
  set_perm l l' h := (h.map Prod.snd).sum_eq

/-- Non-vacuity of C46: the pulse with a tuple in its data comes back equal; the operation and its copy
with -2 in place of -1 are different but equal. -/
example : (∃ w, roundTrip demoEnv demoPulse = .ok w ∧ opEq demoHashes demoPulse w = true) ∧
    opEq demoHashes (pulse (-1)) (worse (pulse (-1))) = true ∧
    opEq demoHashes (pulse 1) (pulse 2) = false :=
  ⟨round_trip_equal _ _ demoPulse_ok, minus_one_equals_minus_two _ _, by decide +kernel⟩

end Verif.Json
