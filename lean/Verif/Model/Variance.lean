import Verif.Model.AutoTraits
/-!
# Subtyping

Rust's subtyping changes lifetimes: `&'long u8` is a subtype of `&'short u8`, and a value of a type may be used where one of a supertype is expected. For a struct the compiler derives from the declared fields how subtyping of its
parameters carries over to it (variance). The field lists of the library's structs are those of Model/AutoTraits.lean. (A struct is covariant in a parameter if its fields are, and so on; so one instance of a struct is a subtype of
another if its fields' types are subtypes. None of these structs has a field whose type is a projection, which would be invariant.)
-/
namespace Varlen
variable {w : Nat}

/-- Two instances of the same field declaration (they may differ in lifetimes). -/
inductive SameField : TyFld w → TyFld w → Prop
  | normal {P Q : Plain} {off : Nat} : SameField (.normal P off) (.normal Q off)
  | length {P Q : Plain} {off : Nat} : SameField (.length P off) (.length Q off)
  | varlen {T U : Ty w} : SameField (.varlen T) (.varlen U)
  | array {P Q : Plain} {len : LenFn w} : SameField (.array P len) (.array Q len)

/-- Two instances of the same type constructor. (Names of structs and newtypes are not in the model: two with the same shape count as the same, so there are more subtypes here than in Rust.) -/
inductive SameDecl : Ty w → Ty w → Prop
  | fixedLen {P Q : Plain} : SameDecl (.fixedLen P) (.fixedLen Q)
  | array {P Q : Plain} {L : LenTy} : SameDecl (.array P L) (.array Q L)
  | str {L : LenTy} : SameDecl (.str L) (.str L)
  | newtype {T U : Ty w} : SameDecl (.newtype T) (.newtype U)
  | tuple {Ts Us : List (Ty w)} : SameDecl (.tuple Ts) (.tuple Us)
  | struct {hs ha : Nat} {fs gs : List (TyFld w)} : (∀ (i : Nat) (f g : TyFld w), fs[i]? = some f → gs[i]? = some g → SameField f g) → SameDecl (.struct hs ha fs) (.struct hs ha gs)

/-- The compiler's rules; `le P Q`: the ordinary type `P` is a subtype of `Q`. `PhantomData`, slices, `NonNull` and `&` are covariant, `&mut` is invariant, structs are as their fields are. (The lifetimes of the references
themselves, which may always be shortened, are not in the model.) -/
inductive Sub (le : Plain → Plain → Prop) : RTm w → RTm w → Prop
  | plain {P Q : Plain} : le P Q → Sub le (.plain P) (.plain Q)
  | obj {T U : Ty w} : SameDecl T U → T.decl.length = U.decl.length → (∀ (i : Nat) (t u : RTm w), T.decl[i]? = some t → U.decl[i]? = some u → Sub le t u) → Sub le (.obj T) (.obj U)
  | phantomPinned : Sub le .phantomPinned .phantomPinned
  | phantom {t u : RTm w} : Sub le t u → Sub le (.phantom t) (.phantom u)
  | slice {t u : RTm w} : Sub le t u → Sub le (.slice t) (.slice u)
  | nonNull {t u : RTm w} : Sub le t u → Sub le (.nonNull t) (.nonNull u)
  | ref {t u : RTm w} : Sub le t u → Sub le (.ref t) (.ref u)
  | mutRef {t u : RTm w} : Sub le t u → Sub le u t → Sub le (.mutRef t) (.mutRef u)
  | struct {fs gs : List (RTm w)} : fs.length = gs.length → (∀ (i : Nat) (t u : RTm w), fs[i]? = some t → gs[i]? = some u → Sub le t u) → Sub le (.struct fs) (.struct gs)

end Varlen
