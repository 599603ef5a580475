import Verif.Model.Email
import Mathlib.Data.Rat.Floor

/-
Model of sbclassifier/message.py, function by function.  Formatting of numbers,
`repr`, `math.log10` and RFC 2047 encoding are parameters (`Fmt`); `as_string`
is in Model/Generator.lean; `from_path` is not modelled.
-/

namespace Sb.Mail
open Py

/-- A Python float. -/
inductive PyFloat where
  | fin (q : ℚ)
  | posInf
  | negInf
  | nan
  deriving DecidableEq

/-- `a < b` on floats -/
def PyFloat.lt : PyFloat → PyFloat → Bool
  | .nan, _ => false
  | _, .nan => false
  | .fin a, .fin b => a < b
  | .negInf, .negInf => false
  | .negInf, _ => true
  | _, .negInf => false
  | .posInf, _ => false
  | .fin _, .posInf => true

/-- `a <= b` on floats -/
def PyFloat.le : PyFloat → PyFloat → Bool
  | .nan, _ => false
  | _, .nan => false
  | .fin a, .fin b => a ≤ b
  | .negInf, _ => true
  | _, .posInf => true
  | .posInf, _ => false
  | .fin _, .negInf => false

/-- The double written `0.2`; HAM_CUTOFF, classifiers/constants.py l.8. -/
def hamCutoff : ℚ := 3602879701896397 / 18014398509481984
/-- The double written `0.9`; SPAM_CUTOFF, classifiers/constants.py l.9. -/
def spamCutoff : ℚ := 8106479329266893 / 9007199254740992
/-- The double written `0.005`. -/
def lowEnd : ℚ := 5764607523034235 / 1152921504606846976
/-- The double written `0.995`. -/
def highEnd : ℚ := 8962163258467287 / 9007199254740992

/-- `Classification`, message.py l.146. -/
inductive Cls where
  | spam | ham | unsure
  deriving DecidableEq, Repr

/-- `c.name` -/
def Cls.name : Cls → Txt
  | .spam => txt "spam"
  | .ham => txt "ham"
  | .unsure => txt "unsure"

/-! The header names, message.py l.97-136. -/
def classificationName : Txt := txt "X-Spambayes-Classification"
def scoreName : Txt := txt "X-Spambayes-Spam-Probability"
def levelName : Txt := txt "X-Spambayes-Level"
def evidenceName : Txt := txt "X-Spambayes-Evidence"
def mailIdName : Txt := txt "X-Spambayes-MailId"
def trainedName : Txt := txt "X-Spambayes-Trained"

/-- STATS_START_KEY, message.py l.138. -/
def statsStartKey : Txt := txt "Statistics start date"
/-- STATS_STORAGE_KEY, message.py l.139. -/
def statsStorageKey : Txt := txt "Persistent statistics"

/-- A `Message`: the header list and the attributes set in message.py l.181-183. -/
structure Msg where
  headers : Headers
  messageid : Option Txt
  c : Option Cls
  t : Option Bool
  deriving DecidableEq

/-- The object of `Message()`, message.py l.175-187. -/
def Msg.new : Msg := ⟨[], none, none, none⟩

/-- An argument of `set_id`. -/
inductive IdArg where
  | none
  | str (t : Txt)
  | other
  deriving DecidableEq

/-- `self.messageid and self.messageid != new_id`, message.py l.248.  An argument
that is neither None nor a str is taken to be different from every str. -/
def idChanges (old : Option Txt) (new : IdArg) : Bool :=
  match old with
  | none => false
  | some old => old != [] && new != .str old

/-- `Message.set_id`, message.py l.247-258. -/
def setId (new : IdArg) : M Msg Unit := fun m =>
  if idChanges m.messageid new then (.error .valueError, m)
  else match new with
    | .none => (.error .valueError, m)
    | .other => (.error .typeError, m)
    | .str t =>
      if t = statsStartKey ∨ t = statsStorageKey then (.error .valueError, m)
      else (.ok (), { m with messageid := some t })

/-- A fetched header value as an argument of `set_id`. -/
def IdArg.ofStored : Stored → IdArg
  | .none => .none
  | .str t => .str t
  | .header _ => .other

/-- `Message.set_id_from_payload`, message.py l.337-342: only ValueError is caught. -/
def setIdFromPayload : M Msg (Option Txt) := fun m =>
  match setId (.ofStored (m.headers.get mailIdName)) m with
  | (.ok (), m') => (.ok m'.messageid, m')
  | (.error .valueError, m') => (.ok none, m')
  | (.error e, m') => (.error e, m')

/-- An argument of `set_classification`. -/
inductive ClsArg where
  | cls (c : Cls)
  | float (p : PyFloat)
  | other

/-- The classification of a probability, message.py l.300-305. -/
def clsOf (prob : PyFloat) : Cls :=
  if prob.lt (.fin hamCutoff) then .ham
  else if PyFloat.lt (.fin spamCutoff) prob then .spam
  else .unsure

/-- `Message.set_classification`, message.py l.293-308. -/
def setClassification : ClsArg → M Msg Cls
  | .cls c => fun m => (.ok c, { m with c := some c })
  | .float p => fun m => (.ok (clsOf p), { m with c := some (clsOf p) })
  | .other => M.raise .valueError

/-- A token in a clue list. -/
inductive Word where
  | bytes (b : List Nat)
  | str (t : Txt)
  deriving DecidableEq

/-- What message.py takes from the platform. -/
structure Fmt where
  /-- `"%.*f" % (digits, p)` -/
  fixed : Int → PyFloat → Txt
  /-- `"%d" % -math.log10(p)` for 0 < p -/
  log10 : PyFloat → Txt
  /-- `1 - p` (and `1.0-p`) in floating point -/
  oneMinus : PyFloat → PyFloat
  /-- `p * 10` in floating point -/
  timesTen : PyFloat → PyFloat
  /-- `Header(word, charset='utf-8').encode()` -/
  encode : Txt → Except Err Txt
  /-- `"%r" % word` -/
  repr : Word → Txt

/-- The argument `notate_to` or `notate_subject`: None, a sequence of enum members
and strings, or a single string. -/
inductive Notate where
  | none
  | seq (l : List (Cls ⊕ Txt))
  | str (t : Txt)

/-- The options of `add_sb_headers`, message.py l.344-348; the defaults are the
ones of the signature, 0.5 being the float. -/
structure Opts where
  includeThermostat : Bool := false
  includeScore : Bool := false
  scoreDigits : Int := 2
  scoreLogarithm : Bool := false
  includeEvidence : Bool := false
  clueCutoff : PyFloat := .fin (1 / 2)
  addUniqueId : Bool := true
  notateTo : Notate := .none
  notateSubject : Notate := .none

/-- `self[name] = value` -/
def addHeader (name : Txt) (v : Stored) : M Msg Unit :=
  M.modify (fun m => { m with headers := m.headers.set name v })

/-- The score header's text, message.py l.411-418. -/
def scoreText (F : Fmt) (prob : PyFloat) (o : Opts) : Txt :=
  F.fixed o.scoreDigits prob ++
    (if o.scoreLogarithm then
      (if prob.le (.fin lowEnd) && PyFloat.lt (.fin 0) prob then
        txt " (" ++ F.log10 prob ++ txt ")" else []) ++
      (if PyFloat.le (.fin highEnd) prob && prob.lt (.fin 1) then
        txt " (" ++ F.log10 (F.oneMinus prob) ++ txt ")" else [])
    else [])

/-- message.py l.410-419 -/
def addScore (F : Fmt) (prob : PyFloat) (o : Opts) : M Msg Unit :=
  if o.includeScore then addHeader scoreName (.str (scoreText F prob o)) else pure ()

/-- `'*' * int(p)`: int of NaN is a ValueError, of an infinity an OverflowError; a
negative count gives ''. -/
def stars : PyFloat → Except Err Txt
  | .fin q => .ok (List.replicate (⌊q⌋.toNat) 42)
  | .nan => .error .valueError
  | _ => .error .overflowError

/-- message.py l.421-422 -/
def addLevel (F : Fmt) (prob : PyFloat) (o : Opts) : M Msg Unit :=
  if o.includeThermostat then
    match stars (F.timesTen prob) with
    | .ok s => addHeader levelName (.str s)
    | .error e => M.raise e
  else pure ()

/-- The condition of message.py l.429. -/
def shown (F : Fmt) (hco : PyFloat) (word : Word) (score : PyFloat) : Bool :=
  word == .bytes [42, 72, 42] || word == .bytes [42, 83, 42] || score.le hco ||
    PyFloat.le (F.oneMinus hco) score

/-- The word as printed, message.py l.430-431. -/
def encodeWord (F : Fmt) : Word → Except Err Word
  | .str t => (F.encode t).map .str
  | .bytes b => .ok (.bytes b)

/-- The entry of a clue, message.py l.433; scores are floats, so the TypeError of
l.434 does not arise. -/
def entry (F : Fmt) (word : Word) (score : PyFloat) : Txt :=
  F.repr word ++ txt ": " ++ F.fixed 2 score

/-- The list `evd`, message.py l.427-435. -/
def evidence (F : Fmt) (hco : PyFloat) : List (Word × PyFloat) → Except Err (List Txt)
  | [] => .ok []
  | (word, score) :: rest =>
    if shown F hco word score then do
      let w ← encodeWord F word
      let r ← evidence F hco rest
      pure (entry F w score :: r)
    else evidence F hco rest

/-- The wrapping loop, message.py l.443-451, as a recursion over the remaining
components; `evd[index+1]` is the head of the rest. -/
def wrapFrom (lineLength : Nat) : List Txt → Txt
  | [] => []
  | [component] => component
  | component :: next :: rest =>
    if lineLength + component.length + 2 + next.length < 78 then
      component ++ txt "; " ++ wrapFrom (lineLength + component.length) (next :: rest)
    else component ++ txt ";\n\t" ++ wrapFrom 8 (next :: rest)

/-- message.py l.440-452: the line starts with the header's name and `": "`. -/
def wrapEvidence (evd : List Txt) : Txt := wrapFrom (evidenceName.length + 2) evd

/-- message.py l.424-452 -/
def addEvidence (F : Fmt) (clues : List (Word × PyFloat)) (o : Opts) : M Msg Unit :=
  if o.includeEvidence then
    match evidence F o.clueCutoff clues with
    | .ok evd => addHeader evidenceName (.str (wrapEvidence evd))
    | .error e => M.raise e
  else pure ()

/-- message.py l.454-455: the id may be None. -/
def addId (o : Opts) : M Msg Unit := fun m =>
  if o.addUniqueId then
    addHeader mailIdName (match m.messageid with | some t => .str t | none => .none) m
  else (.ok (), m)

/-- `self.c in (notate or ())`, message.py l.457, l.475, l.489: a member of a str
must be a str. -/
def inNotate (c : Option Cls) : Notate → Except Err Bool
  | .none => .ok false
  | .seq l => .ok (l.any (fun e => match e with | .inl d => c == some d | .inr _ => false))
  | .str t => if t = [] then .ok false else .error .typeError

/-- The body of the two `if` statements of `add_notations`, message.py l.481-485
and l.490-494: put `pre ++ ","` before the value, or add a header `pre`. -/
def notate (name pre : Txt) : M Msg Unit := fun m =>
  match format (m.headers.get name) with
  | .error e => (.error e, m)
  | .ok old =>
    match m.headers.replace name (.str (pre ++ txt "," ++ old)) with
    | some h => (.ok (), { m with headers := h })
    | none => (.ok (), { m with headers := m.headers.set name (.str pre) })

def invalid : Txt := txt "@spambayes.invalid"

/-- The name of the current classification; `self.c.name` is only evaluated when
`self.c` is in a sequence of enum members. -/
def clsName (m : Msg) : Txt := match m.c with | some c => c.name | none => []

/-- message.py l.475-485 -/
def addToNotation (n : Notate) : M Msg Unit := fun m =>
  match inNotate m.c n with
  | .error e => (.error e, m)
  | .ok b => if b then notate (txt "To") (clsName m ++ invalid) m else (.ok (), m)

/-- message.py l.489-494 -/
def addSubjectNotation (n : Notate) : M Msg Unit := fun m =>
  match inNotate m.c n with
  | .error e => (.error e, m)
  | .ok b => if b then notate (txt "Subject") (clsName m) m else (.ok (), m)

/-- `Message.add_notations`, message.py l.459-494. -/
def addNotations (notateTo subject : Notate) : M Msg Unit := do
  addToNotation notateTo
  addSubjectNotation subject

/-- `Message.add_sb_headers`, message.py l.344-457. -/
def addSbHeaders (F : Fmt) (prob : PyFloat) (clues : List (Word × PyFloat)) (o : Opts) :
    M Msg Unit := do
  let c ← setClassification (.float prob)
  addHeader classificationName (.str c.name)
  addScore F prob o
  addLevel F prob o
  addEvidence F clues o
  addId o
  addNotations o.notateTo o.notateSubject

/-- One half of `remove_notations`, message.py l.510-520 and l.521-531: `suffix` is
what follows the name of the classification in the notation. -/
def removeNotation (flag : Bool) (name suffix : Txt) : M Msg Unit := fun m =>
  match m.headers.get name with
  | .none => (.ok (), m)
  | .header _ => if flag then (.error .attributeError, m) else (.ok (), m)
  | .str t =>
    if t = [] ∨ flag = false then (.ok (), m)
    else
      match [Cls.ham.name ++ suffix, Cls.spam.name ++ suffix, Cls.unsure.name ++ suffix].find?
          (fun d => d.isPrefixOf t) with
      | none => (.ok (), m)
      | some d =>
        match m.headers.replace name (.str (t.drop d.length)) with
        | some h => (.ok (), { m with headers := h })
        | none => (.error .keyError, m)

/-- `Message.remove_notations`, message.py l.496-531. -/
def removeNotations (removeSubject removeTo : Bool) : M Msg Unit := do
  removeNotation removeSubject (txt "Subject") (txt ",")
  removeNotation removeTo (txt "To") (invalid ++ txt ",")

/-- The list of names in message.py l.540-546 and l.554-557. -/
def sbNames : List Txt :=
  [classificationName, mailIdName, classificationName ++ txt "-ID", levelName, evidenceName,
    scoreName, trainedName]

/-- `Message.current_sb_headers`, message.py l.533-550. -/
def currentSbHeaders (m : Msg) : Dict Txt Stored :=
  sbNames.foldl (fun d name =>
    match m.headers.get name with
    | .none => d
    | v => d.set name v) Dict.empty

/-- `Message.remove_sb_headers`, message.py l.552-561.  The two flags are passed on
by position, in the other order. -/
def removeSbHeaders (removeTo removeSubject : Bool) : M Msg Unit := do
  M.modify (fun m => { m with headers := sbNames.foldl Headers.del m.headers })
  removeNotations removeTo removeSubject

/-- `Message.__getstate__`, message.py l.321-322. -/
def getState (m : Msg) : Option Txt × Option Cls × Option Bool := (m.messageid, m.c, m.t)

/-- A `Message` object made without `__init__` and given a state,
`Message.__setstate__`, message.py l.324-325: `_headers` is `none` (missing) then. -/
structure Restored where
  headers : Option Headers
  messageid : Option Txt
  c : Option Cls
  t : Option Bool

/-- Unpickling or copying, message.py l.321-325. -/
def setState (s : Option Txt × Option Cls × Option Bool) : Restored := ⟨none, s.1, s.2.1, s.2.2⟩

/-- `copy.copy(m)`, `copy.deepcopy(m)`, `pickle.loads(pickle.dumps(m))`. -/
def copyMsg (m : Msg) : Restored := setState (getState m)

/-- `m[name]` on such an object: AttributeError without `_headers`. -/
def Restored.get (r : Restored) (name : Txt) : Except Err Stored :=
  match r.headers with
  | none => .error .attributeError
  | some h => .ok (h.get name)

/-! ### Functions on text -/

/-- `force_crlf`, message.py l.142 and l.167-169. -/
def forceCrlf : Txt → Txt
  | [] => []
  | 13 :: 10 :: r => 13 :: 10 :: forceCrlf r
  | c :: r => if c = 13 ∨ c = 10 then 13 :: 10 :: forceCrlf r else c :: forceCrlf r

/-- A character removed by `str.strip`. -/
def isSpace (c : Nat) : Bool :=
  (9 ≤ c && c ≤ 13) || (28 ≤ c && c ≤ 32) || c == 0x85 || c == 0xA0 || c == 0x1680 ||
  (0x2000 ≤ c && c ≤ 0x200A) || c == 0x2028 || c == 0x2029 || c == 0x202F || c == 0x205F ||
  c == 0x3000

/-- `s.strip()` -/
def strip (s : Txt) : Txt := ((s.dropWhile isSpace).reverse.dropWhile isSpace).reverse

/-- `'\n '.join(s.split('\n'))`, message.py l.579-580. -/
def spaced : Txt → Txt
  | [] => []
  | c :: r => if c = 10 then 10 :: 32 :: spaced r else c :: spaced r

/-- `re.sub(r'\r?\n', '\r\n', s)`, message.py l.593. -/
def crlfSub : Txt → Txt
  | [] => []
  | 13 :: 10 :: r => 13 :: 10 :: crlfSub r
  | c :: r => if c = 10 then 13 :: 10 :: crlfSub r else c :: crlfSub r

/-- `re.split(r'\n\r?\n', s, 1)`, message.py l.588; `none` if there is no match. -/
def splitBlank : Txt → Option (Txt × Txt)
  | [] => none
  | c :: r =>
    match c, r with
    | 10, 10 :: b => some ([], b)
    | 10, 13 :: 10 :: b => some ([], b)
    | _, _ => (splitBlank r).map (fun p => (c :: p.1, p.2))

def exceptionName : Txt := txt "X-Spambayes-Exception"

/-- What is appended to the headers, message.py l.579-597; `str(Header(s))` is `s`. -/
def exceptionLines (details : Txt) (msgId : Option Txt) : Txt :=
  txt "\n" ++ exceptionName ++ txt ": " ++ crlfSub (spaced (strip details)) ++ txt "\r\n" ++
    (match msgId with
     | none => []
     | some i => if i = [] then [] else mailIdName ++ txt ": " ++ i ++ txt "\r\n")

/-- `insert_exception_header`, message.py l.567-598; `details` is the traceback. -/
def insertExceptionHeader (details msg : Txt) (msgId : Option Txt) : Txt × Txt :=
  let hb := match splitBlank msg with
    | some p => p
    | none => (msg, [])
  (hb.1 ++ exceptionLines details msgId ++ txt "\r\n" ++ hb.2, details)

end Sb.Mail
