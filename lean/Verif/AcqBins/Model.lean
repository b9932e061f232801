/-
The acquisition index manager of a sequencer
(quantify_scheduler/backends/qblox/qblox_acq_index_manager.py).

Simplifications: the thresholded-trigger-count metadata carried along in the mapping is left out
(it does not influence any decision); Python dicts are functions to `Option`, because only lookup
is used and never their order; the sequencer name only occurs in messages.
An exception is a value, returned together with the state at the time of the exception.
-/
namespace Verif.AcqBins

/-- Exceptions. -/
inductive Err where
  | indexError | valueError | runtimeError
deriving DecidableEq, Repr

/-- `constants.NUMBER_OF_QBLOX_ACQ_INDICES` (constants.py:22). -/
def numIndices : Nat := 32

/-- `constants.NUMBER_OF_QBLOX_ACQ_BINS` (constants.py:24). -/
def numBins : Nat := 100000

/-- `QbloxAcquisitionIndexBin` (qblox_acq_index_manager.py:23-55), without metadata. -/
structure Loc where
  index : Nat
  bin : Nat
  stride : Nat
deriving DecidableEq, Repr

/-- The fields of `QbloxAcquisitionIndexManager` (qblox_acq_index_manager.py:89-117). -/
structure St (Ch : Type) where
  /-- `_acq_declaration_dict`: number of bins declared for an index -/
  decl : Nat → Option Nat
  /-- `_acq_hardware_mapping_binned` -/
  binned : Ch → Option (Nat → Option Loc)
  /-- `_acq_hardware_mapping_not_binned` -/
  notBinned : Ch → Option Nat
  /-- `_next_free_qblox_acq_bin` -/
  nextFree : Nat → Nat
  /-- `_acq_channel_to_qblox_acq_index` -/
  chan : Ch → Option Nat
  /-- `_trace_allocated` -/
  trace : Bool

/-- A fresh manager (qblox_acq_index_manager.py:89-117). -/
def St.init (Ch : Type) : St Ch :=
  ⟨fun _ => none, fun _ => none, fun _ => none, fun _ => 0, fun _ => none, false⟩

/-- Dict update `d[k] = v`. -/
def upd {α β : Type} [DecidableEq α] (f : α → β) (k : α) (v : β) : α → β :=
  fun x => if x = k then v else f x

variable {Ch : Type} [DecidableEq Ch]

/-- `_number_of_free_qblox_bins` (qblox_acq_index_manager.py:119-120); may be negative. -/
def St.freeBins (s : St Ch) (i : Nat) : Int := (numBins : Int) - s.nextFree i

/-- `_next_qblox_acq_index_with_all_free_bins` (qblox_acq_index_manager.py:122-126). -/
def St.nextIndex (s : St Ch) : Option Nat :=
  (List.range numIndices).find? (fun i => s.nextFree i == 0)

/-- The dict comprehension `new_qblox_bin_mappings` (qblox_acq_index_manager.py:179-190): the
`k`-th acquisition index is at bin `first + k`; a repeated index keeps the last. -/
def newLocs (index stride : Nat) : Nat → List Nat → Nat → Option Loc
  | _, [], _ => none
  | first, a :: as, x =>
    (newLocs index stride (first + 1) as x).or (if x = a then some ⟨index, first, stride⟩ else none)

/-- The dict after `.update(new)` or, without an old one, `= new`
(qblox_acq_index_manager.py:191-194). -/
def mergeLocs (old : Option (Nat → Option Loc)) (new : Nat → Option Loc) (x : Nat) : Option Loc :=
  (new x).or (old.bind (fun m => m x))

/-- `_reserve_qblox_acq_bins` (qblox_acq_index_manager.py:128-209). -/
def St.reserve (s : St Ch) (n index : Nat) (ch : Ch) (acqs : Option (List Nat)) (reps : Nat) :
    St Ch × Except Err Nat :=
  let first := s.nextFree index
  let next := upd s.nextFree index (first + n * reps)
  let decl := upd s.decl index (some ((s.decl index).getD 0 + n * reps))
  match acqs with
  | none =>
    if (s.binned ch).isSome then (s, .error .valueError)
    else ({ s with notBinned := upd s.notBinned ch (some index), nextFree := next, decl := decl },
      .ok first)
  | some as =>
    if (s.notBinned ch).isSome then (s, .error .valueError)
    else ({ s with binned := upd s.binned ch (some (mergeLocs (s.binned ch) (newLocs index n first as))),
                   nextFree := next, decl := decl }, .ok first)

/-- The end of each allocation: on success `_acq_channel_to_qblox_acq_index[ch] = index`, possibly
`_trace_allocated = True`, and the result (e.g. qblox_acq_index_manager.py:273-275, 450-454). -/
def St.finish (r : St Ch × Except Err Nat) (ch : Ch) (index : Nat) (trace : Bool) :
    St Ch × Except Err (Nat × Nat) :=
  match r.2 with
  | .error e => (r.1, .error e)
  | .ok first =>
    ({ r.1 with chan := upd r.1.chan ch (some index), trace := r.1.trace || trace },
      .ok (index, first))

/-- The request for bins once the index is known (qblox_acq_index_manager.py:255-275, 432-454). -/
def St.takeBins (s : St Ch) (index : Option Nat) (ch : Ch) (acqs : List Nat) (reps : Nat)
    (trace : Bool) : St Ch × Except Err (Nat × Nat) :=
  match index with
  | none => (s, .error .indexError)
  | some i =>
    if (acqs.length : Int) > s.freeBins i then (s, .error .indexError)
    else St.finish (s.reserve acqs.length i ch (some acqs) reps) ch i trace

/-- `allocate_bins` (qblox_acq_index_manager.py:211-275); `repetitions=None` is 1 and a single
acquisition index is a list of one. -/
def St.allocateBins (s : St Ch) (ch : Ch) (acqs : List Nat) (reps : Nat) :
    St Ch × Except Err (Nat × Nat) :=
  s.takeBins ((s.chan ch).or s.nextIndex) ch acqs reps false

/-- `allocate_qblox_index` (qblox_acq_index_manager.py:277-321); the caller uses bin 0
(compiler_abc.py:904-907). -/
def St.allocateIndex (s : St Ch) (ch : Ch) : St Ch × Except Err (Nat × Nat) :=
  match s.chan ch with
  | some i => (s, .ok (i, 0))
  | none =>
    match s.nextIndex with
    | none => (s, .error .indexError)
    | some i => St.finish (s.reserve (s.freeBins i).toNat i ch none 1) ch i false

/-- `allocate_trace` (qblox_acq_index_manager.py:323-376). -/
def St.allocateTrace (s : St Ch) (ch : Ch) : St Ch × Except Err (Nat × Nat) :=
  match s.chan ch with
  | some i => (s, .ok (i, 0))
  | none =>
    if s.trace then (s, .error .runtimeError)
    else
      match s.nextIndex with
      | none => (s, .error .indexError)
      | some i => St.finish (s.reserve 1 i ch none 1) ch i true

/-- `allocate_timetagtrace` (qblox_acq_index_manager.py:378-454). -/
def St.allocateTimetag (s : St Ch) (ch : Ch) (acqs : List Nat) (reps : Nat) :
    St Ch × Except Err (Nat × Nat) :=
  match s.chan ch with
  | some i => s.takeBins (some i) ch acqs reps true
  | none =>
    if s.trace then (s, .error .runtimeError)
    else s.takeBins s.nextIndex ch acqs reps true

/-- The four kinds of request. -/
inductive Req (Ch : Type) where
  | bins (ch : Ch) (acqs : List Nat) (reps : Nat)
  | index (ch : Ch)
  | trace (ch : Ch)
  | timetag (ch : Ch) (acqs : List Nat) (reps : Nat)

/-- Serving a request. -/
def St.exec (s : St Ch) : Req Ch → St Ch × Except Err (Nat × Nat)
  | .bins ch acqs reps => s.allocateBins ch acqs reps
  | .index ch => s.allocateIndex ch
  | .trace ch => s.allocateTrace ch
  | .timetag ch acqs reps => s.allocateTimetag ch acqs reps

/-- `acq_hardware_mapping` (qblox_acq_index_manager.py:469-480) followed by the lookup of the data
of an acquisition in repetition `rep` (instrument_coordinator/components/qblox.py:1886): hardware
index and bin. -/
def St.locate (s : St Ch) (ch : Ch) (acq rep : Nat) : Option (Nat × Nat) :=
  ((s.binned ch).bind (fun m => m acq)).map (fun l => (l.index, l.bin + rep * l.stride))

end Verif.AcqBins
