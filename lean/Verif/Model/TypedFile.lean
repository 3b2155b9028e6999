import Verif.Basic

/-!
# Typed values in HDF5 files: h5cpp/h5typemaps.h and the member functions of `H5ReadWrite` (h5cpp/h5readwrite.cpp)

HDF5 is external. Modelled of it: a file is a tree of groups and data sets with attributes; a name is a path whose components are
separated by `/`, where empty components and `.` mean nothing; the empty name is no name. `H5Gcreate`, `H5Dcreate` and `H5Acreate2`
fail if there is already something with this name, if the group of the new object does not exist, or if the file is read only.
`H5Dwrite` and `H5Awrite` convert from the type in memory to the type in the file, `H5Dread` and `H5Aread` back; a number outside
of the range of an integer type becomes the nearest number of the type. `H5Awrite` fails if the buffer is null, as it is for an
empty vector; `H5Aread` writes all elements of the attribute. Numbers of floating point types are their bit patterns.

Not modelled: conversions between integer and floating point types, or between floating point types (the functions here never ask
for one), links other than the tree, named data types, failures of the library for other reasons (see `Model/Handles`), the limit
of 64 KiB for attributes, names with a null character. A negative dimension is taken as a failure of `H5Screate_simple`; this is
so for -1, other negative numbers are sizes of 2^63 and more, which no file can hold.
-/

namespace Stempy.TypedFile

abbrev Str := List Char
abbrev Path := List Str

/-- Types of HDF5: integers, floating point numbers and strings; `other` for compounds and such. `le`: little endian. -/
inductive FType where
  | int (signed : Bool) (bits : Nat) (le : Bool)
  | flt (bits : Nat) (le : Bool)
  | fixedStr (size : Nat)
  | varStr
  | other (n : Nat)
  deriving DecidableEq, Repr

/-- The C++ types with a specialization of `BasicTypeToH5`. -/
inductive Elem where
  | char | short | int | llong | uchar | ushort | uint | ullong | float | double
  deriving DecidableEq, Repr

/-- h5readwrite.h:45-59 -/
inductive DataType where
  | Int8 | Int16 | Int32 | Int64 | UInt8 | UInt16 | UInt32 | UInt64 | Float | Double | String | None
  deriving DecidableEq, Repr

/-- Whether `char` is signed is up to the platform: `H5T_NATIVE_CHAR` is `CHAR_MIN ? H5T_NATIVE_SCHAR : H5T_NATIVE_UCHAR`. The sizes of
the other types are those of all 64 bit platforms, and the bytes are little endian. -/
structure Platform where
  charSigned : Bool

/-- h5typemaps.h:17-86 `dataTypeId` -/
def Elem.dataTypeId : Elem → FType
  | .char => .int true 8 true
  | .short => .int true 16 true
  | .int => .int true 32 true
  | .llong => .int true 64 true
  | .uchar => .int false 8 true
  | .ushort => .int false 16 true
  | .uint => .int false 32 true
  | .ullong => .int false 64 true
  | .float => .flt 32 true
  | .double => .flt 64 true

/-- h5typemaps.h:17-86 `memTypeId` -/
def Elem.memTypeId (p : Platform) : Elem → FType
  | .char => .int p.charSigned 8 true
  | .short => .int true 16 true
  | .int => .int true 32 true
  | .llong => .int true 64 true
  | .uchar => .int false 8 true
  | .ushort => .int false 16 true
  | .uint => .int false 32 true
  | .ullong => .int false 64 true
  | .float => .flt 32 true
  | .double => .flt 64 true

/-- h5typemaps.h:90-101 `H5ToDataType`; the order of the map is that of the identifiers. -/
def H5ToDataType : List (FType × DataType) :=
  [(.int true 8 true, .Int8), (.int true 16 true, .Int16), (.int true 32 true, .Int32), (.int true 64 true, .Int64),
    (.int false 8 true, .UInt8), (.int false 16 true, .UInt16), (.int false 32 true, .UInt32), (.int false 64 true, .UInt64),
    (.flt 32 true, .Float), (.flt 64 true, .Double)]

/-- h5typemaps.h:103-114 -/
def DataTypeToH5DataType : List (DataType × FType) :=
  [(.Int8, .int true 8 true), (.Int16, .int true 16 true), (.Int32, .int true 32 true), (.Int64, .int true 64 true),
    (.UInt8, .int false 8 true), (.UInt16, .int false 16 true), (.UInt32, .int false 32 true), (.UInt64, .int false 64 true),
    (.Float, .flt 32 true), (.Double, .flt 64 true)]

/-- h5typemaps.h:116-127 -/
def DataTypeToH5MemType (p : Platform) : List (DataType × FType) :=
  [(.Int8, .int p.charSigned 8 true), (.Int16, .int true 16 true), (.Int32, .int true 32 true), (.Int64, .int true 64 true),
    (.UInt8, .int false 8 true), (.UInt16, .int false 16 true), (.UInt32, .int false 32 true), (.UInt64, .int false 64 true),
    (.Float, .flt 32 true), (.Double, .flt 64 true)]

/-- `H5Tequal`; no type is an identifier which is not valid. -/
def tequal : Option FType → Option FType → Int
  | some a, some b => if a = b then 1 else 0
  | _, _ => -1

/-- h5readwrite.cpp:493-507: the first type for which `H5Tequal` is not zero. -/
def getH5ToDataType (table : List (FType × DataType)) (t : Option FType) : DataType :=
  match table.find? (fun e => tequal (some e.1) t != 0) with
  | some e => e.2
  | none => .None

/-- The smallest and the largest number of an integer type. -/
def lo (signed : Bool) (bits : Nat) : Int := if signed then -2 ^ (bits - 1) else 0
def hi (signed : Bool) (bits : Nat) : Int := if signed then 2 ^ (bits - 1) - 1 else 2 ^ bits - 1

/-- The conversion of a number by HDF5. -/
def convert : (src dst : FType) → Int → Option Int
  | .int _ _ _, .int s b _, v => some (max (lo s b) (min (hi s b) v))
  | .flt a _, .flt b _, v => if a = b then some v else none
  | _, _, _ => none

/-- The numbers or strings of an attribute. -/
inductive Vals where
  | nums (l : List Int)
  | strs (l : List Str)
  deriving DecidableEq, Repr

structure Attr where
  type : FType
  vals : Vals
  deriving DecidableEq, Repr

/-- A data set; the numbers are in row-major order. -/
structure DSet where
  type : FType
  dims : List Nat
  vals : List Int
  deriving DecidableEq, Repr

inductive Kind where
  | group
  | data (d : DSet)
  deriving DecidableEq, Repr

structure Node where
  kind : Kind
  attrs : List (Str × Attr)
  deriving DecidableEq, Repr

/-- The file of a `H5ReadWrite`: `valid` is `fileIsValid()`. -/
structure File where
  valid : Bool
  writable : Bool
  nodes : List (Path × Node)
  deriving DecidableEq, Repr

/-- h5readwrite.cpp:81-85: `H5Fcreate` with `H5F_ACC_TRUNC`. -/
def createFile : File := ⟨true, true, [([], ⟨.group, []⟩)]⟩

/-- h5readwrite.cpp:75-79: `H5Fopen` of an existing file, or of none. -/
def openFile : Option File → File
  | some f => ⟨true, false, f.nodes⟩
  | none => ⟨false, false, []⟩

/-- h5readwrite.cpp:536-542 -/
def File.close (f : File) : File := { f with valid := false }

/-- The parts of a string between its slashes. -/
def split : Str → List Str
  | [] => [[]]
  | c :: cs =>
    if c = '/' then [] :: split cs
    else match split cs with
      | [] => [[c]]
      | w :: ws => (c :: w) :: ws

/-- The components of a path. -/
def comps (s : Str) : Path := (split s).filter fun w => w ≠ [] && w ≠ ['.']

def File.node (f : File) (q : Path) : Option Node := f.nodes.lookup q

/-- The object with a name, for `H5Oget_info_by_name`, `H5Dopen`, `H5Gopen` and `H5Aexists_by_name`. -/
def File.object (f : File) (path : Str) : Option Node :=
  if f.valid = false ∨ path = [] then none else f.node (comps path)

/-- `H5Gopen` -/
def File.openGroup (f : File) (path : Str) : Option Path :=
  match f.object path with
  | some ⟨.group, _⟩ => some (comps path)
  | _ => none

/-- `H5Dopen` -/
def File.openData (f : File) (path : Str) : Option DSet :=
  match f.object path with
  | some ⟨.data d, _⟩ => some d
  | _ => none

/-- A new object, `H5Gcreate` and `H5Dcreate`, relative to an open group. -/
def File.create (f : File) (base : Path) (name : Str) (kind : Kind) : Option File :=
  let target := if name.head? = some '/' then comps name else base ++ comps name
  if f.writable = false ∨ target = [] ∨ comps name = [] ∨ (f.node target).isSome then none
  else match f.node target.dropLast with
    | some ⟨.group, _⟩ => some { f with nodes := f.nodes ++ [(target, ⟨kind, []⟩)] }
    | _ => none

/-- h5readwrite.cpp:439-452, 707-710 -/
def isDataSet (f : File) (path : Str) : Bool := (f.openData path).isSome

/-- h5readwrite.cpp:454-467, 712-715 -/
def isGroup (f : File) (path : Str) : Bool :=
  match f.object path with
  | some ⟨.group, _⟩ => true
  | _ => false

/-- h5readwrite.cpp:994-1011 -/
def createGroup (f : File) (path : Str) : Bool × File :=
  if f.valid = false then (false, f)
  else match f.create [] path .group with
    | some f' => (true, f')
    | none => (false, f)

/-- `H5Screate_simple`: at most 32 dimensions, none of them negative. -/
def space (dims : List Int) : Option (List Nat) :=
  if dims.length ≤ 32 ∧ ∀ d ∈ dims, 0 ≤ d then some (dims.map Int.toNat) else none

/-- h5readwrite.cpp:168-195 and 847-878 (the type is that of the template or of the `DataType`). `&h5dim[0]` is an access out of range
if there are no dimensions; `H5Dwrite` reads as many elements as the data set has. -/
def writeData (p : Platform) (f : File) (path name : Str) (dims : List Int) (t : Elem) (data : List Int) : Outcome (Bool × File) :=
  if f.valid = false then .ok (false, f)
  else if dims = [] then .ub
  else match f.openGroup path, space dims with
    | some base, some sp =>
      match (data.take sp.prod).mapM (convert (t.memTypeId p) t.dataTypeId) with
      | none => .ok (false, f)
      | some vals =>
        match f.create base name (.data ⟨t.dataTypeId, sp, vals⟩) with
        | none => .ok (false, f)
        | some f' => if data.length < sp.prod then .ub else .ok (true, f')
    | _, _ => .ok (false, f)

/-- `H5Pset_chunk` refuses no, zero, negative and too large chunks, and its status is not looked at (h5readwrite.cpp:219); with chunks
`H5Dcreate` fails if they have another number of dimensions, or are larger than the data set. -/
def chunksOk (dims : List Nat) (chunks : List Int) (bytes : Nat) : Bool :=
  if chunks.length > 32 ∨ chunks.any (fun c => c ≤ 0 || 2 ^ 32 ≤ c) ∨ 2 ^ 32 ≤ (chunks.map Int.toNat).prod then true
  else chunks.length == dims.length && (List.zip dims chunks).all (fun x => x.2 ≤ (x.1 : Int)) &&
    (chunks.map Int.toNat).prod * bytes < 2 ^ 32

def FType.bytes : FType → Nat
  | .int _ b _ => b / 8
  | .flt b _ => b / 8
  | .fixedStr n => n
  | .varStr => 16
  | .other n => n

/-- h5readwrite.cpp:197-233, 880-895; the elements have the fill value zero. -/
def createDataSet (f : File) (path name : Str) (dims : List Int) (type : DataType) (chunks : List Int) : Outcome (Bool × File) :=
  match DataTypeToH5DataType.lookup type with
  | none => .ok (false, f)
  | some t =>
    if f.valid = false then .ok (false, f)
    else if dims = [] then .ub
    else match f.openGroup path, space dims with
      | some base, some sp =>
        if chunks = [] ∨ chunksOk sp chunks t.bytes = true then
          match f.create base name (.data ⟨t, sp, List.replicate sp.prod 0⟩) with
          | none => .ok (false, f)
          | some f' => .ok (true, f')
        else .ok (false, f)
      | _, _ => .ok (false, f)

/-- A `hsize_t` as an `int`: implementation-defined, the usual one. -/
def toInt (n : Nat) : Int := if n % 2 ^ 32 < 2 ^ 31 then (n % 2 ^ 32 : Nat) else (n % 2 ^ 32 : Nat) - 2 ^ 32

/-- h5readwrite.cpp:302-348; no dimensions for a failure, and for a scalar data set. -/
def getDimensions (f : File) (path : Str) : List Int :=
  match f.openData path with
  | some d => d.dims.map toInt
  | none => []

/-- h5readwrite.cpp:749-758 -/
def dimensionCount (f : File) (path : Str) : Int :=
  if getDimensions f path = [] then -1 else (getDimensions f path).length

/-- h5readwrite.cpp:722-742 -/
def dataType (f : File) (path : Str) : DataType :=
  match f.openData path with
  | some d => getH5ToDataType H5ToDataType (some d.type)
  | none => .None

/-- `std::accumulate` with `std::multiplies<int>`: overflow of `int` is undefined. -/
def product (acc : Int) : List Int → Outcome Int
  | [] => .ok acc
  | d :: ds => if -2 ^ 31 ≤ acc * d ∧ acc * d < 2 ^ 31 then product (acc * d) ds else .ub

/-- h5readwrite.cpp:353-429 without selection, into a buffer for `cap` numbers; 805-816. No numbers for a failure. -/
def readRaw (p : Platform) (f : File) (path : Str) (t : Elem) (cap : Nat) : Outcome (Option (List Int)) :=
  match f.openData path with
  | none => .ok none
  | some d =>
    if tequal (some d.type) (some t.dataTypeId) = 0 then .ok none
    else if cap < d.vals.length then .ub
    else .ok (d.vals.mapM (convert t.dataTypeId (t.memTypeId p)))

/-- h5readwrite.cpp:781-803: the numbers, and the dimensions. `resize` throws for a negative size. -/
def readData (p : Platform) (f : File) (path : Str) (t : Elem) : Outcome (List Int × List Int) :=
  let dims := getDimensions f path
  if dims = [] then .ok ([], dims)
  else do
    let size ← product 1 dims
    if size < 0 then .throw "vector::_M_default_append"
    else do
      let r ← readRaw p f path t size.toNat
      match r with
      | some vals => .ok (vals, dims)
      | none => .ok ([], dims)

/-- h5readwrite.cpp:760-779: data sets with one dimension. -/
def readData1 (p : Platform) (f : File) (path : Str) (t : Elem) : Outcome (List Int) := do
  let r ← readData p f path t
  if r.1 = [] then .ok r.1
  else if r.2.length ≠ 1 then .ok []
  else .ok r.1

def File.attr (f : File) (path name : Str) : Option Attr :=
  match f.object path with
  | some n => n.attrs.lookup name
  | none => none

/-- h5readwrite.cpp:87-94, 679-682 -/
def hasAttribute (f : File) (path name : Str) : Bool := (f.attr path name).isSome

/-- h5readwrite.cpp:96-105, 674-677 -/
def hasAttributes (f : File) (path : Str) : Bool :=
  match f.object path with
  | some n => decide (0 < n.attrs.length)
  | none => false

/-- h5readwrite.cpp:684-705 -/
def attributeType (f : File) (path name : Str) : DataType :=
  match f.attr path name with
  | none => .None
  | some ⟨.fixedStr _, _⟩ => .String
  | some ⟨.varStr, _⟩ => .String
  | some a => getH5ToDataType H5ToDataType (some a.type)

/-- `H5Acreate2` -/
def File.addAttr (f : File) (path name : Str) (a : Attr) : Option File :=
  match f.object path with
  | none => none
  | some n =>
    if f.writable = false ∨ name = [] ∨ (n.attrs.lookup name).isSome then none
    else some { f with nodes := f.nodes.map fun e => if e.1 = comps path then (e.1, ⟨e.2.kind, e.2.attrs ++ [(name, a)]⟩) else e }

/-- h5readwrite.cpp:136-166 and 912-930; a single value is a vector of length one. The attribute exists also if `H5Awrite` fails. -/
def setAttribute (p : Platform) (f : File) (path name : Str) (t : Elem) (values : List Int) : Bool × File :=
  if f.valid = false then (false, f)
  else match values.mapM (convert (t.memTypeId p) t.dataTypeId) with
    | none => (false, f)
    | some vals =>
      match f.addAttr path name ⟨t.dataTypeId, .nums vals⟩ with
      | none => (false, f)
      | some f' => (decide (values ≠ []), f')

/-- The characters before the first null. -/
def cstr (s : Str) : Str := s.takeWhile (· ≠ '\x00')

/-- h5readwrite.cpp:932-992: `setAttribute` of strings. -/
def setAttributeString (f : File) (path name value : Str) : Bool × File :=
  if f.valid = false then (false, f)
  else match f.addAttr path name ⟨.varStr, .strs [cstr value]⟩ with
    | none => (false, f)
    | some f' => (true, f')

/-- h5readwrite.cpp:107-134 and 598-611: whether the attribute was read, and its value. The value `none` is the one of an `int result;`
which has not been written. -/
def attributeValue (p : Platform) (f : File) (path name : Str) (t : Elem) : Outcome (Bool × Option Int) :=
  match f.attr path name with
  | none => .ok (false, none)
  | some a =>
    if tequal (some a.type) (some t.dataTypeId) = 0 then .ok (false, none)
    else match a.vals with
      | .nums [] => .ok (true, none)
      | .nums [v] => .ok ((convert t.dataTypeId (t.memTypeId p) v).isSome, convert t.dataTypeId (t.memTypeId p) v)
      | .nums _ => .ub
      | .strs _ => .ok (false, none)

/-- h5readwrite.cpp:613-672. The buffer for a string of fixed length has one character more than the string. -/
def attributeString (f : File) (path name : Str) : Outcome (Bool × Str) :=
  match f.attr path name with
  | none => .ok (false, [])
  | some ⟨.varStr, .strs [s]⟩ => .ok (true, s)
  | some ⟨.varStr, _⟩ => .ub
  | some ⟨.fixedStr size, .strs (s :: l)⟩ =>
    if size = 0 then .ok (false, [])
    else if (l.length + 1) * size ≤ size + 1 then .ok (true, cstr (s.take size)) else .ub
  | some ⟨.fixedStr _, _⟩ => .ub
  | some _ => .ok (false, [])

/-- The names in the order of the index by name. -/
def sorted (l : List Str) : List Str := l.mergeSort fun a b => decide (a ≤ b)

/-- h5readwrite.cpp:566-596: names are cut at 2047 characters. -/
def children (f : File) (path : Str) : Bool × List Str :=
  match f.openGroup path with
  | none => (false, [])
  | some base =>
    (true, (sorted (f.nodes.filterMap fun e => if e.1 ≠ [] ∧ e.1.dropLast = base then e.1.getLast? else none)).map (·.take 2047))

/-- The components with slashes between them. -/
def join : Path → Str
  | [] => []
  | [w] => w
  | w :: ws => w ++ '/' :: join ws

/-- The way from a group to an object inside of it. -/
def below : (base q : Path) → Option Path
  | [], q => some q
  | _ :: _, [] => none
  | b :: bs, w :: ws => if b = w then below bs ws else none

/-- The way from a group to a data set inside of it, h5readwrite.cpp:42-52. -/
def listed (base : Path) (e : Path × Node) : Option Path :=
  match e.2.kind with
  | .data _ => below base e.1
  | .group => none

/-- h5readwrite.cpp:469-491, 717-720: `H5Ovisit` goes through the objects of each group in the order of their names, and gives
names relative to the group where it starts. -/
def allDataSets (f : File) (path : Str) : List Str :=
  if f.valid = false then []
  else
    match (if path = [] ∨ path = ['/'] then some [] else f.openGroup path) with
    | none => []
    | some base =>
      ((f.nodes.filterMap (listed base)).mergeSort fun a b => decide (a ≤ b)).map join

/-- The calls which change the file. -/
inductive Call where
  | group (path : Str)
  | write (path name : Str) (dims : List Int) (t : Elem) (data : List Int)
  | dataSet (path name : Str) (dims : List Int) (type : DataType) (chunks : List Int)
  | attr (path name : Str) (t : Elem) (values : List Int)
  | string (path name value : Str)
  | close

def step (p : Platform) (f : File) : Call → Outcome (Bool × File)
  | .group path => .ok (createGroup f path)
  | .write path name dims t data => writeData p f path name dims t data
  | .dataSet path name dims type chunks => createDataSet f path name dims type chunks
  | .attr path name t values => .ok (setAttribute p f path name t values)
  | .string path name value => .ok (setAttributeString f path name value)
  | .close => .ok (true, f.close)

/-- The file after some calls. -/
def run (p : Platform) (f : File) : List Call → Outcome File
  | [] => .ok f
  | c :: cs => (step p f c).bind fun r => run p r.2 cs

end Stempy.TypedFile
