/-! # Instances shared by the models -/
namespace Paladin

deriving instance DecidableEq for Except

end Paladin
