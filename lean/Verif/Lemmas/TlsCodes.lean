import Verif.Spec.TlsCodes
import Verif.Lemmas.Binary

/-! Helper lemmas: the TLS code tables. No claims here. -/
namespace Ngfs.Tls

open Ngfs.Binary Ngfs.Spec

theorem cipherSuite_faithful : Faithful cipherSuiteCodes CipherSuite.unknown CipherSuite.fromRaw CipherSuite.toRaw where
  assigned := by decide
  unassigned := by
    intro c h
    simp only [cipherSuiteCodes, List.map_cons, List.map_nil, List.mem_cons, List.not_mem_nil, or_false, not_or] at h
    simp [CipherSuite.fromRaw, h]
  kept := fun _ => rfl
  covers := by
    intro m
    cases m <;> simp [cipherSuiteCodes]

theorem signatureScheme_faithful : Faithful signatureSchemeCodes SignatureScheme.unknown SignatureScheme.fromRaw SignatureScheme.toRaw where
  assigned := by decide
  unassigned := by
    intro c h
    simp only [signatureSchemeCodes, List.map_cons, List.map_nil, List.mem_cons, List.not_mem_nil, or_false, not_or] at h
    simp [SignatureScheme.fromRaw, h]
  kept := fun _ => rfl
  covers := by
    intro m
    cases m <;> simp [signatureSchemeCodes]

theorem namedGroup_faithful : Faithful namedGroupCodes NamedGroup.unknown NamedGroup.fromRaw NamedGroup.toRaw where
  assigned := by decide
  unassigned := by
    intro c h
    simp only [namedGroupCodes, List.map_cons, List.map_nil, List.mem_cons, List.not_mem_nil, or_false, not_or] at h
    simp [NamedGroup.fromRaw, h]
  kept := fun _ => rfl
  covers := by
    intro m
    cases m <;> simp [namedGroupCodes]

theorem namedCurve_faithful : Faithful namedCurveCodes NamedCurve.other NamedCurve.fromRaw NamedCurve.toRaw where
  assigned := by decide
  unassigned := by
    intro c h
    simp only [namedCurveCodes, List.map_cons, List.map_nil, List.mem_cons, List.not_mem_nil, or_false, not_or] at h
    simp [NamedCurve.fromRaw, h]
  kept := fun _ => rfl
  covers := by
    intro m
    cases m <;> simp [namedCurveCodes]

theorem ecPointFormat_faithful : Faithful ecPointFormatCodes ECPointFormat.other ECPointFormat.fromRaw ECPointFormat.toRaw where
  assigned := by decide
  unassigned := by
    intro c h
    simp only [ecPointFormatCodes, List.map_cons, List.map_nil, List.mem_cons, List.not_mem_nil, or_false, not_or] at h
    simp [ECPointFormat.fromRaw, h]
  kept := fun _ => rfl
  covers := by
    intro m
    cases m <;> simp [ecPointFormatCodes]

theorem pskKeyExchangeMode_faithful : Faithful pskKeyExchangeModeCodes PskKeyExchangeMode.unknown PskKeyExchangeMode.fromRaw PskKeyExchangeMode.toRaw where
  assigned := by decide
  unassigned := by
    intro c h
    simp only [pskKeyExchangeModeCodes, List.map_cons, List.map_nil, List.mem_cons, List.not_mem_nil, or_false, not_or] at h
    simp [PskKeyExchangeMode.fromRaw, h]
  kept := fun _ => rfl
  covers := by
    intro m
    cases m <;> simp [pskKeyExchangeModeCodes]

theorem alertLevel_faithful : Faithful alertLevelCodes AlertLevel.unknown AlertLevel.fromRaw AlertLevel.toRaw where
  assigned := by decide
  unassigned := by
    intro c h
    simp only [alertLevelCodes, List.map_cons, List.map_nil, List.mem_cons, List.not_mem_nil, or_false, not_or] at h
    simp [AlertLevel.fromRaw, h]
  kept := fun _ => rfl
  covers := by
    intro m
    cases m <;> simp [alertLevelCodes]

theorem alertDescription_faithful : Faithful alertDescriptionCodes AlertDescription.unknown AlertDescription.fromRaw AlertDescription.toRaw where
  assigned := by decide
  unassigned := by
    intro c h
    simp only [alertDescriptionCodes, List.map_cons, List.map_nil, List.mem_cons, List.not_mem_nil, or_false, not_or] at h
    simp [AlertDescription.fromRaw, h]
  kept := fun _ => rfl
  covers := by
    intro m
    cases m <;> simp [alertDescriptionCodes]

theorem contentType_faithful : Faithful contentTypeCodes ContentType.unknown ContentType.fromRaw ContentType.toRaw where
  assigned := by decide
  unassigned := by
    intro c h
    simp only [contentTypeCodes, List.map_cons, List.map_nil, List.mem_cons, List.not_mem_nil, or_false, not_or] at h
    simp [ContentType.fromRaw, h]
  kept := fun _ => rfl
  covers := by
    intro m
    cases m <;> simp [contentTypeCodes]

end Ngfs.Tls
