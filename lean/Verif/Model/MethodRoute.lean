import Verif.Model.HandlerTree
/-!
# Routes to methods of objects
-/
namespace Pillow

/-- A method that Qt's meta object knows: a slot, or else a signal or a `Q_INVOKABLE` method; `who` says which
function it is. Qt; used at HttpHandlerSimpleRouter.cpp:50, 145-146, 164. -/
structure MetaMethod where
  name : Bytes
  params : List Bytes
  isSlot : Bool
  who : Nat
  deriving Repr, DecidableEq

/-- The normalised signature. (Qt, behind HttpHandlerSimpleRouter.cpp:145-146.) -/
def MetaMethod.signature (m : MetaMethod) : Bytes := m.name ++ b!"(" ++ List.intercalate b!"," m.params ++ b!")"

/-- The methods of the class of an object, in the order in which Qt looks them up (those of the class itself first),
and `QMetaObject::normalizedSignature`. Qt; used at HttpHandlerSimpleRouter.cpp:145-146, 164. -/
structure MetaObject where
  methods : List MetaMethod
  normalize : Bytes → Bytes

/-- The type of the one argument a route passes, `Q_ARG(Pillow::HttpConnection*, request)`.
(HttpHandlerSimpleRouter.cpp:43, 55.) -/
def connectionType : Bytes := b!"Pillow::HttpConnection*"

/-- `indexOfSlot`, with the method it stands for. (Qt, HttpHandlerSimpleRouter.cpp:145.) -/
def MetaObject.slot? (o : MetaObject) (signature : Bytes) : Option MetaMethod := o.methods.find? fun m => m.isSlot && m.signature == signature

/-- `indexOfMethod`, with the method it stands for. (Qt, HttpHandlerSimpleRouter.cpp:146.) -/
def MetaObject.method? (o : MetaObject) (signature : Bytes) : Option MetaMethod := o.methods.find? fun m => m.signature == signature

/-- What `addRoute` stores for a member of an object (HttpHandlerSimpleRouter.cpp:33-58). -/
inductive MethodRoute where
  /-- `QObjectMethodCallRoute`. -/
  | method (m : MetaMethod)
  /-- `QObjectMetaCallRoute`. -/
  | byName (member : Bytes)
  deriving Repr, DecidableEq

/-- `addRoute` for a member of an object (HttpHandlerSimpleRouter.cpp:125-164); `none`: no route is added. `member` is the text up to the terminating zero, empty for a null pointer; there is no
object if `object` is `none`. The call of `indexOfMethod` in line 146 is left out because its value is discarded. -/
def addMember (object : Option MetaObject) (member : Bytes) : Option MethodRoute :=
  match object with
  | none => none
  | some o =>
    if member = [] then none
    else
      let member := if member.head? = some 49 then member.tail else member
      match o.slot? member with
      | some m => some (.method m)
      | none => some (.byName member)

/-- What becomes of a request that is given to such a route: a method is called with it (or with fewer arguments, if it takes none), or with an argument of another type than it expects, or nothing
is called at all. (HttpHandlerSimpleRouter.cpp:40-44, 52-56.) -/
inductive MethodCall where
  | called (who : Nat)
  | mistyped (who : Nat)
  | nothing
  deriving Repr, DecidableEq

/-- `QMetaMethod::invoke` with one argument: fails if the method wants more; the types are not compared. (Qt,
HttpHandlerSimpleRouter.cpp:55.) -/
def MetaMethod.invoke (m : MetaMethod) : MethodCall :=
  match m.params with
  | [] => .called m.who
  | [t] => if t = connectionType then .called m.who else .mistyped m.who
  | _ => .nothing

/-- `invoke` of such a route while the object exists (HttpHandlerSimpleRouter.cpp:38-42, 50-54). `QMetaObject::invokeMethod` looks for a method with this name and the types of the arguments passed, then
for its normalised signature. After the object is destroyed nothing is called. -/
def MethodRoute.invoke (o : MetaObject) : MethodRoute → MethodCall
  | .method m => m.invoke
  | .byName member =>
    let signature := member ++ b!"(" ++ connectionType ++ b!")"
    match o.method? signature with
    | some m => m.invoke
    | none => match o.method? (o.normalize signature) with
      | some m => m.invoke
      | none => .nothing

end Pillow
