/-
Model of components/log_metrics/metrics_container.{h,cc} (C85): gauges, histograms, their merging
and the percentiles.

`int64_t` and `uint64_t` values are modelled as unbounded integers, the `uint32_t` bucket counters
too (fewer than 2^32 values per bucket); conversions to `uint32_t` of positions, counts and results
are modelled.  Durations and the JSON text are not modelled.
-/
namespace Ltio.Metrics

/-- `uint32_t` conversion of an `int64_t`. -/
def u32 (x : Int) : Nat := (x % 4294967296).toNat

/-- `MetricBase` (metrics_container.h:21-34). -/
structure Base where
  counter : Nat
  mn : Int
  mx : Int
  total : Int
deriving DecidableEq, Repr

/-- A new metric (metrics_container.h:29-32). -/
def Base.new : Base := ⟨0, 0, 0, 0⟩

/-- `counter++`, `UpdateMinMax`, `total_value += v` (metrics_container.cc:12-15, 174-176,
194-196). -/
def Base.add (b : Base) (v : Int) : Base := ⟨b.counter + 1, min b.mn v, max b.mx v, b.total + v⟩

/-- The common part of both `Merge` functions (metrics_container.cc:28-31, 67-70). -/
def Base.merge (b o : Base) : Base :=
  ⟨b.counter + o.counter, min o.mn b.mn, max o.mx b.mx, b.total + o.total⟩

/-- `MetricGuage` (metrics_container.h:36-41). -/
structure Gauge where
  base : Base
  latest : Int
deriving DecidableEq, Repr

/-- A new gauge (metrics_container.cc:18-21). -/
def Gauge.new : Gauge := ⟨.new, 0⟩

/-- `HandleGuage` on the gauge of the item's name (metrics_container.cc:168-178). -/
def Gauge.add (g : Gauge) (v : Int) : Gauge := ⟨g.base.add v, v⟩

/-- `MetricGuage::Merge` (metrics_container.cc:23-34). -/
def Gauge.merge (g o : Gauge) : Gauge := ⟨g.base.merge o.base, o.latest⟩

/-- `MetricDistArgs` (metrics_container.h:15-19). -/
structure Args where
  precise : Int
  lo : Int
  hi : Int
deriving DecidableEq, Repr

/-- `kDefaultDistArgs` (metrics_container.cc:8-10). -/
def Args.default : Args := ⟨100, 0, 1000000⟩

/-- The number of buckets, `ceil(range / precise)` (metrics_container.cc:53-55); the `double`
arithmetic is exact for ranges below 2^53. -/
def Args.buckets (a : Args) : Nat := ((a.hi - a.lo + a.precise - 1) / a.precise).toNat

/-- `MetricDist` (metrics_container.h:44-60). -/
structure Hist where
  base : Base
  args : Args
  cells : List Nat
deriving DecidableEq, Repr

/-- A new histogram (metrics_container.cc:44-56). -/
def Hist.new (a : Args) : Hist := ⟨.new, a, List.replicate a.buckets 0⟩

/-- The position that `IncrBucketByValue` increments (metrics_container.cc:78-87); integer division
truncates, and the position is converted to `uint32_t`. -/
def Args.pos (a : Args) (n : Nat) (v : Int) : Nat :=
  if a.hi ≤ v then n - 1 else if v ≤ a.lo then 0 else u32 (v.tdiv a.precise)

/-- An access of a vector's element; outside of the vector it is undefined behaviour (`none`). -/
def bump (l : List Nat) (i : Nat) : Option (List Nat) :=
  if i < l.length then some (l.set i (l.getD i 0 + 1)) else none

/-- `HandleHistogram` on the histogram of the item's name (metrics_container.cc:194-197). -/
def Hist.add (h : Hist) (v : Int) : Option Hist :=
  (bump h.cells (h.args.pos h.cells.length v)).map (fun c => ⟨h.base.add v, h.args, c⟩)

/-- A sequence of values. -/
def Hist.addAll (h : Hist) : List Int → Option Hist
  | [] => some h
  | v :: vs => (h.add v).bind (fun h' => h'.addAll vs)

/-- `MetricDist::Merge` (metrics_container.cc:58-76): the result, and the histogram afterwards
(`none`: the other histogram's buckets are read out of bounds). -/
def Hist.merge (h o : Hist) : Bool × Option Hist :=
  if h.cells.length = o.cells.length then (false, some h)
  else (true,
    if h.cells.length ≤ o.cells.length then
      some ⟨h.base.merge o.base, h.args, h.cells.zipWith (· + ·) o.cells⟩
    else none)

/-- The loop of metrics_container.cc:100-104: the number of buckets summed up until the sum is at
least `count`. -/
def scan (count : Nat) : Nat → List Nat → Nat
  | _, [] => 0
  | sum, c :: cs => if sum < count then scan count (sum + c) cs + 1 else 0

/-- `CalculatePecentile(percent)` (metrics_container.cc:98-106). -/
def Hist.percentile (h : Hist) (percent : Nat) : Nat :=
  u32 (h.args.precise * (scan (u32 (h.base.counter * percent / 100 : Nat)) 0 h.cells : Nat))

/-- The loop of metrics_container.cc:116-122: `bucket`, `sum`, and the percentiles still to find;
gives the results found. -/
def scanAll (counter : Nat) (precise : Int) : Nat → Nat → List Nat → List Nat → List Nat
  | _, _, [], _ => []
  | _, _, _, [] => []
  | bucket, sum, c :: cs, q :: qs =>
    if sum + c > counter / 100 * q then
      u32 (precise * (bucket : Int)) :: scanAll counter precise (bucket + 1) (sum + c) cs qs
    else scanAll counter precise (bucket + 1) (sum + c) cs (q :: qs)

/-- `CalculatePecentile(percents)` for percentiles in increasing order (metrics_container.cc:108-124):
those not found stay zero. -/
def Hist.percentiles (h : Hist) (qs : List Nat) : List Nat :=
  let r := scanAll h.base.counter h.args.precise 0 0 h.cells qs
  r ++ List.replicate (qs.length - r.length) 0

end Ltio.Metrics
