P=[('C157','Rounding in the derivation of a cut does bounded harm',
'In floating-point arithmetic with unit roundoff u, the cut derived from a solution of the point-ray LP with P entries has at every point x a slack that differs from that of the inequality in the nonbasic space by at most ((1+u)^(P+1)-1) times (sum over the columns of the moduli of what goes into the coefficient, times |x_k|, plus the moduli of what goes into the right-hand side), plus EPS times the sum of |x_k|. Cleaning adds the losses of the coefficients removed, at most ((1+u)^(n+1)-1) times the moduli of what goes into the right-hand side, and EPS. So a point in the box that satisfies the inequality up to d violates the cut handed out by at most d plus these errors, and the LP optimum violates it by at least the right-hand side less these errors and losses. Violated if no error is allowed: rounding alone, with doubles as data, makes the cut of a valid inequality invalid.',
'all roundings with relative error u per operation (double precision without overflow and underflow: u = 2^-53), all LP relaxations whose rows have distinct columns, all solutions, bounds, tolerances and points',
'Rounding errors depend on the data in a chaotic way; a bound for all data cannot be tested.',
[('src/utility/nbspace.cpp',['setCutFromNBCoefficients']),('src/cut/CutHelper.cpp',['setOsiRowCut','removeSmallCoefficients'])])]
S={}
