import Verif.Time.Model

/-!
# Conversions between time values and the records of other systems (C105)

`TimeStamp.cpp`, `TimeSpan.cpp` (OpenSplice DDS and the library's own IDL types) and `TimeBase.cpp` (`timespec`,
`mach_timespec_t`). IDL `long`/`unsigned long` are 32 bits, `long long`/`unsigned long long` 64 bits wide; `DDS::Time_t` is
`{ long sec; unsigned long nanosec; }`; `time_t` and `long` are 64 bits wide. Conversions of integers to signed types of
smaller width are modular (implementation defined before C++20, so on every supported compiler).
-/
namespace Verif.Time

/-- A pair of seconds and nanoseconds in some record. -/
structure Rec where
  sec : Int
  nsec : Int
  deriving DecidableEq, Repr

/-- Value range of `uint32_t`. -/
def U32 (x : Int) : Prop := 0 ≤ x ∧ x < 4294967296
/-- Value range of `uint64_t`. -/
def U64 (x : Int) : Prop := 0 ≤ x ∧ x < 18446744073709551616

instance (x : Int) : Decidable (U32 x) := by unfold U32; infer_instance
instance (x : Int) : Decidable (U64 x) := by unfold U64; infer_instance

/-- TimeStamp.cpp:47-50 constructor from `DDS::Time_t`. -/
def ofDds (r : Rec) : Outcome TB := ctor r.sec (wrapI32 r.nsec)

/-- TimeStamp.cpp:57-62 assignment of a `DDS::Time_t`: no normalisation. -/
def assignDds (r : Rec) : TB := ⟨r.sec, wrapI32 r.nsec⟩

/-- TimeStamp.cpp:71-77 conversion to `DDS::Time_t`. -/
def toDds (t : TB) : Rec := ⟨wrapI32 t.secs, wrapU32 t.nsecs⟩

/-- TimeStamp.cpp:52-55, iTimeStamp.idl:6-10 constructor from `iTimeStamp`. -/
def ofIStamp (r : Rec) : Outcome TB := ctor (wrapI64 r.sec) (wrapI32 r.nsec)

/-- TimeStamp.cpp:64-69 assignment of an `iTimeStamp`: no normalisation. -/
def assignIStamp (r : Rec) : TB := ⟨wrapI64 r.sec, wrapI32 r.nsec⟩

/-- TimeStamp.cpp:79-85 conversion to `iTimeStamp`. -/
def toIStamp (t : TB) : Rec := ⟨wrapU64 t.secs, wrapU32 t.nsecs⟩

/-- TimeSpan.cpp:43-45, iTimeSpan.idl:6-10 constructor from `iTimeSpan`. -/
def ofISpan (r : Rec) : Outcome TB := ctor r.sec r.nsec

/-- TimeSpan.cpp:47-52 assignment of an `iTimeSpan`: no normalisation. -/
def assignISpan (r : Rec) : TB := ⟨r.sec, r.nsec⟩

/-- TimeSpan.cpp:54-60 conversion to `iTimeSpan`. -/
def toISpan (t : TB) : Rec := ⟨t.secs, t.nsecs⟩

/-- TimeBase.cpp:113-119 `timespec()`; without LXRT 3.3 also 121-145 `systemTimespec()`. -/
def toTimespec (t : TB) : Rec := ⟨t.secs, t.nsecs⟩

/-- TimeBase.cpp:148-154 `machTimespec()` (Darwin). -/
def toMach (t : TB) : Rec := ⟨wrapU32 t.secs, t.nsecs⟩

end Verif.Time
