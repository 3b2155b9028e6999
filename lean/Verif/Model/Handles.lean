import Verif.Basic

/-!
# The HDF5 identifiers of h5cpp: h5cpp/hidcloser.h, h5cpp/h5readwrite.cpp

Only identifiers, the error handler and the control flow are modelled, not the contents of files. The library is external:
the result of every call is given by an arbitrary sequence of numbers, negative for a failure; a call with an
identifier which is not valid fails. A call which makes an
identifier gives a new positive one if it succeeds; 0 is `H5P_DEFAULT`, and `H5Pclose(H5P_DEFAULT)` does nothing (H5P.c).
A constructor of a `HIDCloser` is the begin of `within`, its destructor the end. Memory exhaustion is not modelled.
-/

namespace Stempy.Handles

inductive Kind where
  | file
  | group
  | dataset
  | space
  | attr
  | type
  | plist
  deriving Repr, DecidableEq

structure Lib where
  /-- Results of the calls to come: call number `n` gives `oracle n`. -/
  oracle : Nat → Int
  calls : Nat := 0
  /-- The next new identifier. -/
  next : Int := 1
  /-- The identifiers in use. -/
  opened : List (Int × Kind) := []
  /-- Calls of a close function for something which is not open, or not of its kind. -/
  wrong : Nat := 0
  /-- The error handler of the library; 0 is none. -/
  handler : Nat := 1
  /-- `m_fileId`, `m_errorHandlingIsOff`, `m_errorHandler`, h5readwrite.cpp:546-552. -/
  fileId : Int := -1
  handlingOff : Bool := false
  saved : Nat := 0

abbrev M := StateM Lib

/-- The library fails for identifiers which are not valid. -/
def valid (ids : List Int) : Bool := ids.all fun id => decide (0 ≤ id)

/-- A call with the identifiers `ids`, which makes no identifier. -/
def call (ids : List Int) : M Int := fun s => (if valid ids then s.oracle s.calls else -1, { s with calls := s.calls + 1 })

/-- A call with the identifiers `ids`, which makes an identifier. -/
def make (k : Kind) (ids : List Int) : M Int := fun s =>
  if s.oracle s.calls < 0 ∨ valid ids = false then (-1, { s with calls := s.calls + 1 })
  else (s.next, { s with calls := s.calls + 1, next := s.next + 1, opened := (s.next, k) :: s.opened })

/-- `H5Dclose` and the others. -/
def close (k : Kind) (id : Int) : M Unit := fun s =>
  if id = 0 ∧ k = .plist then ((), s)
  else if (id, k) ∈ s.opened then ((), { s with opened := s.opened.erase (id, k) })
  else ((), { s with wrong := s.wrong + 1 })

/-- hidcloser.h:29-37: `close` of a `HIDCloser` with a closer. -/
def closeValid (k : Kind) (id : Int) : M Unit := if 0 ≤ id then close k id else pure ()

/-- The life of a `HIDCloser`, hidcloser.h:15-17, 55. -/
def within {α : Type} (k : Kind) (id : Int) (body : M α) : M α := do
  let r ← body
  closeValid k id
  return r

/-- The identifier of the file, h5readwrite.cpp:544. It is not given as an argument below where it was tested before. -/
def fileId : M Int := fun s => (s.fileId, s)

def fileIsValid : M Bool := fun s => (decide (0 ≤ s.fileId), s)

/-- h5readwrite.cpp:511-519 -/
def turnOffErrors : M Unit := fun s =>
  if s.handlingOff then ((), s) else ((), { s with saved := s.handler, handler := 0, handlingOff := true })

/-- h5readwrite.cpp:523-532 -/
def turnOnErrors : M Unit := fun s =>
  if s.handlingOff then ((), { s with handler := s.saved, saved := 0, handlingOff := false }) else ((), s)

/-- h5readwrite.cpp:75-85: `H5Fopen` and `H5Fcreate`; in the constructor, 60-71. -/
def openFile : M Bool := do
  let id ← make .file []
  modify fun s => { s with fileId := id }
  fileIsValid

/-- h5readwrite.cpp:536-542, called by `close` and the destructor. -/
def clear : M Unit := do
  if ← fileIsValid then
    let s ← get
    close .file s.fileId
    modify fun s => { s with fileId := -1 }

/-- h5readwrite.cpp:87-94 -/
def attributeExists : M Bool := do
  if ← fileIsValid then
    let r ← call []
    return decide (0 < r)
  else return false

/-- h5readwrite.cpp:431-437 -/
def getInfoByName : M Bool := do
  if ← fileIsValid then
    let r ← call []
    return decide (0 ≤ r)
  else return false

/-- h5readwrite.cpp:96-105; the number of attributes is a result too. -/
def hasAttribute : M Bool := do
  if ← getInfoByName then
    let n ← call []
    return decide (0 < n)
  else return false

/-- h5readwrite.cpp:439-452, and `isGroup` 454-467. The second result is the difference of the type and the one asked for. -/
def isDataSet : M Bool := do
  turnOffErrors
  if ← getInfoByName then
    turnOnErrors
    let type ← call []
    return decide (type = 0)
  else
    turnOnErrors
    return false

/-- h5readwrite.cpp:107-134 -/
def attributeValue : M Bool := do
  if ← attributeExists then
    let attr ← make .attr []
    let type ← make .type [attr]
    within .attr attr <| within .type type do
      let e ← call [type]
      if e = 0 then return false
      else
        let e ← call [type]
        if e < 0 then return false
        else
          let r ← call [attr]
          return decide (0 ≤ r)
  else return false

/-- h5readwrite.cpp:136-166 -/
def setAttribute : M Bool := do
  if ← fileIsValid then
    let onData ← isDataSet
    let k := if onData then Kind.dataset else Kind.group
    let parent ← make k []
    within k parent do
      let space ← make .space []
      let attr ← make .attr [parent, space]
      within .space space <| within .attr attr do
        let r ← call [attr]
        return decide (0 ≤ r)
  else return false

/-- h5readwrite.cpp:168-195 -/
def writeData : M Bool := do
  if ← fileIsValid then
    let group ← make .group []
    let space ← make .space []
    let data ← make .dataset [group, space]
    within .group group <| within .space space <| within .dataset data do
      let r ← call [data]
      return decide (0 ≤ r)
  else return false

/-- h5readwrite.cpp:197-233; `chunked`: `chunkDims` is not empty. -/
def createDataSet (chunked : Bool) : M Bool := do
  if ← fileIsValid then
    let group ← make .group []
    let dcpl ← if chunked then do
        let id ← make .plist []
        let _ ← call [id]
        pure id
      else pure 0
    within .plist dcpl do
      let space ← make .space []
      let data ← make .dataset [group, space, dcpl]
      within .group group <| within .space space <| within .dataset data do
        return decide (0 ≤ data)
  else return false

/-- h5readwrite.cpp:235-300 -/
def updateData : M Bool := do
  if ← fileIsValid then
    let data ← make .dataset []
    if data < 0 then return false
    else within .dataset data do
      let space ← make .space [data]
      if space < 0 then return false
      else within .space space do
        let r ← call [space]
        if r < 0 then return false
        else
          let mem ← make .space []
          if mem < 0 then return false
          else within .space mem do
            let r ← call [data, mem, space]
            return decide (0 ≤ r)
  else return false

/-- h5readwrite.cpp:302-348 -/
def getDimensions : M Bool := do
  if ← isDataSet then
    let data ← make .dataset []
    if data < 0 then return false
    else within .dataset data do
      let space ← make .space [data]
      if space < 0 then return false
      else within .space space do
        let n ← call [space]
        if n < 1 then return false
        else
          let n2 ← call [space]
          return decide (n = n2)
  else return false

/-- h5readwrite.cpp:353-429; `select`: one of `strides`, `start` and `counts` is given. -/
def readData (select : Bool) : M Bool := do
  let file ← fileId
  let data ← make .dataset [file]
  if data < 0 then return false
  else within .dataset data do
    let space ← make .space [data]
    if space < 0 then return false
    else within .space space do
      let mem ← if select then do
          let _ ← getDimensions
          let _ ← call [space]
          make .space []
        else pure (-1)
      within .space mem do
        let type ← make .type [data]
        within .type type do
          let e ← call [type]
          if e = 0 then return false
          else
            let e ← call [type]
            if e < 0 then return false
            else
              let r ← call [data, if select then mem else 0, space]
              return decide (0 ≤ r)

/-- h5readwrite.cpp:469-491; `root`: the path is empty or `/`. -/
def allDataSets (root : Bool) : M Bool := do
  if ← fileIsValid then
    let group ← if root then pure (-1) else make .group []
    within .group group do
      let r ← call [if root then 0 else group]
      return decide (0 ≤ r)
  else return false

/-- h5readwrite.cpp:566-596; the number of children is a result. -/
def children : M Bool := do
  if ← fileIsValid then
    let group ← make .group []
    if group < 0 then return false
    else within .group group do
      let n ← call [group]
      for _ in List.range n.toNat do
        let _ ← call [group]
      return true
  else return false

/-- h5readwrite.cpp:613-672: `attribute<string>` -/
def attributeString : M Bool := do
  if ← attributeExists then
    let attr ← make .attr []
    let type ← make .type [attr]
    within .attr attr <| within .type type do
      let cls ← call [type]
      if cls ≠ 3 then return false
      else
        let var ← call [type]
        if 0 < var then
          let r ← call [attr, type]
          return decide (0 ≤ r)
        else if var = 0 then
          let size ← call [type]
          if size = 0 then return false
          else
            let r ← call [attr, type]
            return decide (0 ≤ r)
        else return false
  else return false

/-- h5readwrite.cpp:684-705; `getH5ToDataType` (493-507) calls `H5Tequal` for the ten types until one is equal. -/
def attributeType : M Bool := do
  if ← attributeExists then
    let attr ← make .attr []
    let type ← make .type [attr]
    within .attr attr <| within .type type do
      let cls ← call [type]
      if cls = 3 then return true
      else findType type 10
  else return false
where
  findType (type : Int) : Nat → M Bool
    | 0 => return false
    | n + 1 => do
      let e ← call [type]
      if e ≠ 0 then return true else findType type n

/-- h5readwrite.cpp:722-742 -/
def dataType : M Bool := do
  if ← isDataSet then
    let data ← make .dataset []
    if data < 0 then return false
    else
      let type ← make .type [data]
      within .dataset data <| within .type type <| attributeType.findType type 10
  else return false

/-- h5readwrite.cpp:932-982: `setAttribute<const char*>` -/
def setAttributeString : M Bool := do
  if ← fileIsValid then
    let onData ← isDataSet
    let k := if onData then Kind.dataset else Kind.group
    let parent ← make k []
    within k parent do
      let space ← make .space []
      within .space space do
        let type ← make .type []
        let status ← call [type]
        if status < 0 then return false
        else
          let attr ← make .attr [parent, type, space]
          if attr < 0 then return false
          else within .attr attr do
            let r ← call [attr, type]
            return decide (0 ≤ r)
  else return false

/-- h5readwrite.cpp:994-1011 -/
def createGroup : M Bool := do
  if ← fileIsValid then
    let id ← make .group []
    if id < 0 then return false
    else
      close .group id
      return true
  else return false

/-- The public member functions. The templates differ in the type of the values only. -/
inductive Call where
  | attributeExists
  | hasAttribute
  | isDataSet
  | isGroup
  | attribute
  | attributeString
  | attributeType
  | setAttribute
  | setAttributeString
  | writeData
  | createDataSet (chunked : Bool)
  | updateData
  | getDimensions
  | readData (select : Bool)
  | allDataSets (root : Bool)
  | children
  | dataType
  | createGroup
  | close
  deriving Repr, DecidableEq

def Call.run : Call → M Bool
  | .attributeExists => Handles.attributeExists
  | .hasAttribute => Handles.hasAttribute
  | .isDataSet => Handles.isDataSet
  | .isGroup => Handles.isDataSet
  | .attribute => Handles.attributeValue
  | .attributeString => Handles.attributeString
  | .attributeType => Handles.attributeType
  | .setAttribute => Handles.setAttribute
  | .setAttributeString => Handles.setAttributeString
  | .writeData => Handles.writeData
  | .createDataSet chunked => Handles.createDataSet chunked
  | .updateData => Handles.updateData
  | .getDimensions => Handles.getDimensions
  | .readData select => Handles.readData select
  | .allDataSets root => Handles.allDataSets root
  | .children => Handles.children
  | .dataType => Handles.dataType
  | .createGroup => Handles.createGroup
  | .close => do clear; return true

/-- The life of a `H5ReadWrite` object: constructor, calls, destructor. -/
def life (calls : List Call) : M Unit := do
  let _ ← openFile
  calls.forM fun c => discard c.run
  clear

/-- A `HIDCloser`, hidcloser.h:12-58; `closer` is the kind which its function closes. -/
structure HIDCloser where
  value : Int := -1
  closer : Option Kind := none
  deriving Repr, DecidableEq

namespace HIDCloser

/-- hidcloser.h:29-37 -/
def close (c : HIDCloser) : M HIDCloser :=
  match c.closer with
  | some k => if 0 ≤ c.value then do Handles.close k c.value; return { c with value := -1 } else return c
  | none => return c

/-- hidcloser.h:23-27 -/
def reset (c : HIDCloser) (v : Int) : M HIDCloser := do
  let c ← c.close
  return { c with value := v }

/-- hidcloser.h:44-52, of two different objects: the new values of both. The closer is not assigned. -/
def moveAssign (c other : HIDCloser) : M (HIDCloser × HIDCloser) := do
  let c ← c.close
  return ({ c with value := other.value }, { other with value := -1 })

/-- hidcloser.h:42 -/
def moveNew (other : HIDCloser) : M (HIDCloser × HIDCloser) := moveAssign {} other

end HIDCloser

end Stempy.Handles
