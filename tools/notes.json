{
 "C04": {"status":"partial","note":"Order reversal, exactness in exact arithmetic and the error bound are proved; exact involution is false in binary64 (witness 2^-60)."},
 "C09": {"note":"Full claim is false of the code: zero-weight last index can be drawn when the accepted weights sum to less than 1 (witness proved). The partial theorem shows this is the only case."},
 "C10": {"note":"Sum to one proved; non-negativity is false (witness K=2, draw 1/2): the code divides by the sum of the draws instead of the sum of their -ln."}
}
