{
 "m57": [
  "Svd.C54_warnings, Svd.C54_overlapping_blocks_reported (added: before them, the mutant survived)"
 ],
 "m55": [
  "Svd.C54_warnings (added: before it, the mutant broke lemmas but no claim)"
 ],
 "m56": [
  "Svd.C54_misaligned_reported (added: before it, the mutant broke lemmas but no claim)"
 ],
 "m60": [
  "Svd.C55_refused_iff_defect (added: before it, the mutant broke lemmas but no claim)"
 ],
 "m100": [
  "Svd.C58_warnings (added: before it, the mutant survived)"
 ],
 "m102": [
  "Svd.C46_followed_partial (added: before it, the mutant survived)"
 ],
 "m99": [
  "Svd.Says lemmas for the schema location (added: before them, the mutant survived)"
 ],
 "m101": [
  "none: the text of an element that has child elements; no claim is false of the edited program"
 ],
 "m103": [
  "none: the display name computed for a peripheral is used nowhere; no claim is false of the edited program"
 ],
 "m104": [
  "none: a default that every use sets; no claim is false of the edited program"
 ],
 "m105": [
  "none: the edited branch is only reached with base 16, where the text is in lower case; see m178 for base 0, which is killed"
 ]
}