import Verif.Base

/-!
# Model of `icl_core_testsuite`: `TestListener.cpp`, `test_suite.cpp`

CppUnit is an external library; it is represented by the events it reports for a tree of suites and test
cases.  A test case either passes or has one or more failures (a failed assertion, an exception, a failing
`setUp` or `tearDown`).
-/
namespace Verif.Testsuite

/-- A string. -/
abbrev S := List Char

/-- What CppUnit's registry contains. -/
inductive Test where
  | case (name : S) (failures : Nat)
  | suite (name : S) (tests : List Test)

/-- What CppUnit tells its listeners. -/
inductive Ev where
  | startTest (name : S)
  | addFailure
  | endTest
  | startSuite (name : S)
  | endSuite (name : S)
  deriving DecidableEq

mutual
/-- CppUnit: running a test. -/
def events : Test → List Ev
  | .case n k => .startTest n :: (List.replicate k .addFailure ++ [.endTest])
  | .suite n ts => .startSuite n :: (eventsAll ts ++ [.endSuite n])
/-- CppUnit: running the tests of a suite. -/
def eventsAll : List Test → List Ev
  | [] => []
  | t :: ts => events t ++ eventsAll ts
end

/-- The object (TestListener.h:51) and what it has written to `std::cerr`. -/
structure Listener where
  /-- `m_success`; not initialised by a constructor -/
  success : Bool
  out : S

/-- `std::setw(60) << std::left << s`. -/
def setw60 (s : S) : S := s ++ List.replicate (60 - s.length) ' '

/-- TestListener.cpp:30-54. -/
def Listener.step (l : Listener) : Ev → Listener
  | .startTest n => { success := true, out := l.out ++ "  Running ".toList ++ setw60 n }
  | .addFailure => { l with success := false }
  | .endTest => { l with out := l.out ++ (if l.success then "OK".toList else "FAILED".toList) ++ ['\n'] }
  | .startSuite n => { l with out := l.out ++ "Running test suite ".toList ++ n ++ ":\n".toList }
  | .endSuite n => { l with out := l.out ++ "Test suite ".toList ++ n ++ " finished.\n".toList }

/-- test_suite.h:34-44 `TestResultOutputType`; an `enum` variable can also hold another number. -/
inductive OutputType where
  | text
  | compiler
  | xml
  | other
  deriving DecidableEq

/-- The number of failures CppUnit's `TestResultCollector` has been told of. -/
def collected (es : List Ev) : Nat := es.countP fun e => e = .addFailure

/-- test_suite.cpp:40-96 `runCppunitTestSuite`: the return value, and the lines written by the `TestListener`
(the summary that CppUnit's outputters write afterwards is not modelled). `garbage`: the initial value of
`m_success`. -/
def runSuite (ty : OutputType) (t : Test) (garbage : Bool) : Int × S :=
  let (es, lines) : List Ev × S := match ty with
    | .text | .compiler => (events t, ((events t).foldl Listener.step ⟨garbage, []⟩).out)
    | .xml => (events t, [])
    | .other => ([], [])
  (if collected es = 0 then 0 else 1, lines)

end Verif.Testsuite
